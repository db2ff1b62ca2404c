import Verif.Props.Gimbal
import Verif.Spec.Gimbal2
import Verif.Model.RatesIeee

/-!
# C121: second derivatives and rates of Euler angles near the gimbal lock, in IEEE arithmetic
-/

set_option autoImplicit false

open Classical

noncomputable section
namespace Kindr
open Spec
namespace Format
variable {f : Format}

/-- A computed number that is finite and within `k` units of `B` from `x`, where `|x| ≤ B`. -/
def XNear (f : Format) (k B : ℝ) (X : XR) (x : ℝ) : Prop := ∃ a, X = .fin a ∧ |a - x| ≤ k * f.uu * B ∧ |x| ≤ B

lemma XNear.neg {k B : ℝ} {X : XR} {x : ℝ} (h : XNear f k B X x) : XNear f k B X.neg (-x) := by
  obtain ⟨a, rfl, h1, h2⟩ := h
  refine ⟨-a, rfl, ?_, by rwa [abs_neg]⟩
  rw [← neg_sub', abs_neg]; exact h1

lemma XNear.nonneg {k B : ℝ} {X : XR} {x : ℝ} (h : XNear f k B X x) : 0 ≤ B := by
  obtain ⟨a, _, _, h2⟩ := h; exact (abs_nonneg _).trans h2

lemma XNear.mono {k B k' B' : ℝ} {X : XR} {x : ℝ} (h : XNear f k B X x) (hk : 0 ≤ k') (h1 : k ≤ k') (h2 : B ≤ B') : XNear f k' B' X x := by
  have B0 := h.nonneg
  obtain ⟨a, e, g1, g2⟩ := h
  have u0 : 0 ≤ f.uu := by unfold uu; positivity
  refine ⟨a, e, g1.trans ?_, g2.trans h2⟩
  exact mul_le_mul (mul_le_mul_of_nonneg_right h1 u0) h2 B0 (by positivity)

lemma XNear.of (x B : ℝ) (h : |x| ≤ B) : XNear f 0 B (.fin x) x := ⟨x, rfl, by simp, h⟩

lemma rnd_near (hf : AtLeastFloat f) {a x B k : ℝ} (h : |a - x| ≤ k * f.uu * B) (hx : |x| ≤ B) (hk : k ≤ 3000) (hB : B ≤ 2 ^ (f.emax - 2))
    (hη : f.eta ≤ 9 / 10 * f.uu * B) : XNear f (k + 2) B (f.arith.rnd a) x := by
  have ok := alf_ok hf
  have R := rn ok
  obtain ⟨u0, u1⟩ := alf_uu hf
  have B0 : 0 ≤ B := (abs_nonneg _).trans hx
  have ku : k * f.uu ≤ 1 / 1000 := by
    have := mul_le_mul hk u1 u0.le (by norm_num); norm_num at this ⊢; linarith
  have kB : k * f.uu * B ≤ 1 / 1000 * B := mul_le_mul_of_nonneg_right ku B0
  have e3 := R.le_of h hx
  have e2 := R.step h hx
  have e : (2 : ℝ) ^ (f.emax - 1) = 2 * 2 ^ (f.emax - 2) := by
    rw [← zpow_one_add₀ (by norm_num)]; congr 1; ring
  refine ⟨f.round a, fin_of ok (by linarith), e2.trans ?_, hx⟩
  have := mul_le_mul_of_nonneg_left kB u0.le
  have uB : 0 ≤ f.uu * B := by positivity
  linarith

lemma XNear.mul (hf : AtLeastFloat f) {k l B C : ℝ} {X Y : XR} {x y : ℝ} (h : XNear f k B X x) (g : XNear f l C Y y) (hk0 : 0 ≤ k) (hl0 : 0 ≤ l)
    (hk : k ≤ 100) (hl : l ≤ 100) {E : ℝ} (hE : B * C ≤ E) (hB : E ≤ 2 ^ (f.emax - 2)) (hη : f.eta ≤ 1 / 2 * f.uu * E) :
    XNear f (k + l + 3) E (f.arith.mul X Y) (x * y) := by
  have B0 := h.nonneg; have C0 := g.nonneg
  obtain ⟨a, rfl, h1, h2⟩ := h
  obtain ⟨b, rfl, g1, g2⟩ := g
  obtain ⟨u0, u1⟩ := alf_uu hf
  have BC : 0 ≤ B * C := mul_nonneg B0 C0
  have uBC : 0 ≤ f.uu * (B * C) := mul_nonneg u0.le BC
  have e1 : |a * b - x * y| ≤ (k + l + 1) * f.uu * (B * C) := by
    have e : a * b - x * y = (a - x) * (b - y) + (a - x) * y + x * (b - y) := by ring
    rw [e]
    refine (abs_add_three _ _ _).trans ?_
    rw [abs_mul, abs_mul, abs_mul]
    have x1 := mul_le_mul h1 g1 (abs_nonneg _) (by positivity)
    have x2 := mul_le_mul h1 g2 (abs_nonneg _) (by positivity)
    have x3 := mul_le_mul h2 g1 (abs_nonneg _) B0
    have klu : k * l * f.uu ≤ 1 := by
      have a1 := mul_le_mul hk hl hl0 (by norm_num)
      have a2 := mul_le_mul a1 u1 u0.le (by norm_num)
      norm_num at a2 ⊢; linarith
    have x4 := mul_le_mul_of_nonneg_right klu uBC
    linarith
  have E0 : 0 ≤ f.uu * E := mul_nonneg u0.le (BC.trans hE)
  have r := rnd_near hf (e1.trans (mul_le_mul_of_nonneg_left hE (by positivity)))
    ((show |x * y| ≤ B * C by rw [abs_mul]; exact mul_le_mul h2 g2 (abs_nonneg _) B0).trans hE) (by linarith) hB (hη.trans (by linarith))
  exact r.mono (by linarith) (by linarith) le_rfl

lemma XNear.add (hf : AtLeastFloat f) {k B C : ℝ} {X Y : XR} {x y : ℝ} (h : XNear f k B X x) (g : XNear f k C Y y)
    (hk : k ≤ 100) (hB : B + C ≤ 2 ^ (f.emax - 2)) (hη : f.eta ≤ 1 / 2 * f.uu * (B + C)) :
    XNear f (k + 2) (B + C) (f.arith.add X Y) (x + y) := by
  have B0 := h.nonneg; have C0 := g.nonneg
  obtain ⟨a, rfl, h1, h2⟩ := h
  obtain ⟨b, rfl, g1, g2⟩ := g
  obtain ⟨u0, u1⟩ := alf_uu hf
  have uBC : 0 ≤ f.uu * (B + C) := by positivity
  refine rnd_near hf ?_ ((abs_add_le _ _).trans (add_le_add h2 g2)) (by linarith) hB (hη.trans (by linarith))
  have e : a + b - (x + y) = (a - x) + (b - y) := by ring
  rw [e]
  refine (abs_add_le _ _).trans ((add_le_add h1 g1).trans (le_of_eq (by ring)))

lemma XNear.sub (hf : AtLeastFloat f) {k B C : ℝ} {X Y : XR} {x y : ℝ} (h : XNear f k B X x) (g : XNear f k C Y y)
    (hk : k ≤ 100) (hB : B + C ≤ 2 ^ (f.emax - 2)) (hη : f.eta ≤ 1 / 2 * f.uu * (B + C)) :
    XNear f (k + 2) (B + C) (f.arith.sub X Y) (x - y) := by
  rw [sub_eq_add_neg]; exact XNear.add hf h g.neg hk hB hη

/-- Reciprocal of a number with a small relative error. -/
lemma XNear.recip (hf : AtLeastFloat f) {k : ℝ} {X : XR} {x : ℝ} (hx : x ≠ 0) (h : XNear f k |x| X x) (hk0 : 0 ≤ k) (hk : k ≤ 100)
    (hB : |1 / x| ≤ 2 ^ (f.emax - 2)) (hη : f.eta ≤ 1 / 2 * f.uu * |1 / x|) : XNear f (k + 3) |1 / x| (f.arith.div (.fin 1) X) (1 / x) ∧ ¬ X.eq (.fin 0) := by
  obtain ⟨a, rfl, h1, -⟩ := h
  obtain ⟨u0, u1⟩ := alf_uu hf
  have x0 : 0 < |x| := abs_pos.mpr hx
  have ku : k * f.uu ≤ 1 / 1000 := by
    have := mul_le_mul hk u1 u0.le (by norm_num); norm_num at this ⊢; linarith
  have kux : k * f.uu * |x| ≤ 1 / 1000 * |x| := mul_le_mul_of_nonneg_right ku x0.le
  have t1 : 999 / 1000 * |x| ≤ |a| := by
    have := abs_sub_abs_le_abs_sub x a
    rw [abs_sub_comm] at this; linarith
  have a0 : 0 < |a| := by linarith
  have ane : a ≠ 0 := abs_pos.mp a0
  refine ⟨?_, ane⟩
  have I0 : 0 ≤ f.uu * |1 / x| := by positivity
  have e1 : |1 / a - 1 / x| ≤ (k + 1) * f.uu * |1 / x| := by
    have e : 1 / a - 1 / x = (x - a) / a * (1 / x) := by field_simp
    rw [e, abs_mul]
    refine mul_le_mul_of_nonneg_right ?_ (abs_nonneg _)
    rw [abs_div, abs_sub_comm, div_le_iff₀ a0]
    have := mul_le_mul_of_nonneg_left t1 (show 0 ≤ (k + 1) * f.uu by positivity)
    have h3 : k * f.uu * |x| ≤ 100 * (f.uu * |x|) := by
      have := mul_le_mul_of_nonneg_right hk (show 0 ≤ f.uu * |x| by positivity); linarith
    have : 0 ≤ f.uu * |x| := by positivity
    linarith
  simp only [XArith.div, if_neg ane]
  exact (rnd_near hf e1 le_rfl (by linarith) hB (hη.trans (by linarith))).mono (by linarith) (by linarith) le_rfl

/-- The sine or cosine of a stored angle. -/
lemma trig_near (hf : AtLeastFloat f) {s : ℝ} (hs : |s| ≤ 1) : XNear f 2 1 (f.arith.rnd s) s := by
  have e1 : f.eta ≤ 9 / 10 * f.uu * 1 := by
    unfold eta uu
    have : (2 : ℝ) ^ (f.emin - 1) ≤ 2⁻¹ * 2⁻¹ ^ f.p := by
      rw [inv_pow, ← zpow_natCast, ← zpow_neg, ← zpow_neg_one, ← zpow_add₀ (by norm_num)]
      exact zpow_le_zpow_right₀ (by norm_num) (by have := hf.emin; have := hf.p; omega)
    have p : (0 : ℝ) ≤ 2⁻¹ ^ f.p := by positivity
    linarith
  have := rnd_near hf (a := s) (x := s) (k := 0) (B := 1) (by simp) hs (by norm_num) (by
    rw [show (1 : ℝ) = 2 ^ (0 : ℤ) by norm_num]
    exact zpow_le_zpow_right₀ (by norm_num) (by have := hf.emax; omega)) e1
  simpa using this

/-- What both second mappings need. -/
structure SecondCtx (f : Format) (y D T : ℝ) : Prop where
  hf : AtLeastFloat f
  c0 : Real.cos y ≠ 0
  cos : ¬ (f.arith.cos (.fin y)).eq (.fin 0)
  inv : XNear f 5 T (f.arith.div (.fin 1) (f.arith.cos (.fin y))) (1 / Real.cos y)
  inv2 : XNear f 10 (T ^ 2) (f.arith.div (.fin 1) (f.arith.mul (f.arith.cos (.fin y)) (f.arith.cos (.fin y)))) (1 / (Real.cos y * Real.cos y))
  T1 : 1 ≤ T
  D0 : 0 < D
  top1 : 8 * T ^ 2 ≤ 2 ^ (f.emax - 2)
  top2 : 8 * (D * T ^ 2) ≤ 2 ^ (f.emax - 2)
  eta1 : f.eta ≤ 1 / 2 * f.uu * 1
  etaD : f.eta ≤ 1 / 2 * f.uu * D

lemma secondCtx (hf : AtLeastFloat f) {y s : ℝ} (hs : 0 ≤ s) (h1 : 2 ^ (f.emin + f.p) ≤ Real.cos y ^ 2) (h2 : s + 1 ≤ 2 ^ (f.emax - 5) * Real.cos y ^ 2) :
    SecondCtx f y (s + 2 ^ (f.emin + f.p)) |1 / Real.cos y| := by
  obtain ⟨u0, u1⟩ := alf_uu hf
  obtain ⟨c, hc⟩ : ∃ c, c = Real.cos y := ⟨_, rfl⟩
  have cle : |c| ≤ 1 := by rw [hc]; exact Real.abs_cos_le_one y
  have hcx : f.arith.cos (.fin y) = f.arith.rnd c := by rw [hc]; rfl
  rw [← hc] at h1 h2
  have cne : c ≠ 0 := by
    rintro rfl
    have : (0 : ℝ) < 2 ^ (f.emin + f.p) := by positivity
    norm_num at h1; linarith
  have c0 : 0 < |c| := abs_pos.mpr cne
  have csq : c ^ 2 = |c| * |c| := by rw [abs_mul_abs_self, sq]
  have sqle : |c| * |c| ≤ |c| := by have := mul_le_mul_of_nonneg_left cle c0.le; linarith
  have ue : f.uu * 2 ^ (f.emin + f.p) = 2 * f.eta := by
    unfold uu eta
    rw [inv_pow, ← zpow_natCast, ← zpow_neg, ← zpow_add₀ (by norm_num), ← zpow_one_add₀ (by norm_num)]
    congr 1; ring
  have eta2 : f.eta ≤ 1 / 2 * f.uu * (|c| * |c|) := by
    have := mul_le_mul_of_nonneg_left h1 u0.le
    rw [csq, ue] at this; linarith
  have uc : f.uu * (|c| * |c|) ≤ f.uu * |c| := mul_le_mul_of_nonneg_left sqle u0.le
  have uc0 : 0 ≤ f.uu * |c| := by positivity
  have u1c : f.uu * |c| ≤ f.uu * 1 := mul_le_mul_of_nonneg_left cle u0.le
  have one : (1 : ℝ) ≤ 2 ^ (f.emax - 5) := by
    rw [show (1 : ℝ) = 2 ^ (0 : ℤ) by norm_num]
    exact zpow_le_zpow_right₀ (by norm_num) (by have := hf.emax; omega)
  have e8 : (2 : ℝ) ^ (f.emax - 2) = 8 * 2 ^ (f.emax - 5) := by
    rw [show (8 : ℝ) = 2 ^ (3 : ℤ) by norm_num, ← zpow_add₀ (by norm_num)]; congr 1; ring
  have I : |1 / c| * |c| = 1 := by rw [← abs_mul, one_div_mul_cancel cne, abs_one]
  have T1 : 1 ≤ |1 / c| := by
    have := mul_le_mul_of_nonneg_left cle (abs_nonneg (1 / c)); linarith
  have T2 : |1 / c| ≤ |1 / c| ^ 2 := by rw [sq]; have := mul_le_mul_of_nonneg_left T1 (abs_nonneg (1 / c)); linarith
  have I2 : |1 / c| ^ 2 * c ^ 2 = 1 := by rw [csq, ← sq, ← mul_pow, I, one_pow]
  have e1 : (2 : ℝ) ^ (f.emin + f.p) ≤ 1 := by rw [csq] at h1; linarith
  have eM : (0 : ℝ) < 2 ^ (f.emin + f.p) := by positivity
  have top : (s + 1) * |1 / c| ^ 2 ≤ 2 ^ (f.emax - 5) := by
    have := mul_le_mul_of_nonneg_right h2 (sq_nonneg |1 / c|)
    rw [mul_assoc, mul_comm (c ^ 2), I2, mul_one] at this; exact this
  have sT : 0 ≤ s * |1 / c| ^ 2 := by positivity
  have eT : 2 ^ (f.emin + f.p) * |1 / c| ^ 2 ≤ 1 * |1 / c| ^ 2 := mul_le_mul_of_nonneg_right e1 (sq_nonneg _)
  have near : XNear f 2 |c| (f.arith.rnd c) c := by
    have := rnd_near hf (a := c) (x := c) (k := 0) (B := |c|) (by simp) le_rfl (by norm_num) (by linarith) (by linarith)
    simpa using this
  have near2 := near.mul hf near (by norm_num) (by norm_num) (by norm_num) (by norm_num) (E := |c * c|) (by rw [abs_mul]) (by rw [abs_mul]; linarith)
    (by rw [abs_mul]; linarith)
  have uT : f.uu * 1 ≤ f.uu * |1 / c| := mul_le_mul_of_nonneg_left T1 u0.le
  have uT2 : f.uu * |1 / c| ≤ f.uu * |1 / c| ^ 2 := mul_le_mul_of_nonneg_left T2 u0.le
  have r1 := XNear.recip hf cne near (by norm_num) (by norm_num) (by linarith) (by linarith)
  have ab : |1 / (c * c)| = |1 / c| ^ 2 := by rw [← abs_pow]; congr 1; field_simp
  have r2 := XNear.recip hf (mul_ne_zero cne cne) near2 (by norm_num) (by norm_num) (by rw [ab]; linarith) (by rw [ab]; linarith)
  rw [← hc]
  refine ⟨hf, by rw [← hc]; exact cne, by rw [hcx]; exact r1.2, ?_, ?_, T1, by linarith, by linarith, by linarith, by linarith, ?_⟩
  · rw [hcx, ← hc]; have := r1.1; norm_num at this ⊢; exact this
  · rw [hcx, ← hc, ← ab]; have := r2.1; norm_num at this ⊢; exact this
  · have := mul_nonneg u0.le hs
    rw [mul_assoc, mul_add, ue]; linarith

/-- A bound that neither overflows nor underflows. -/
def Good (f : Format) (E : ℝ) : Prop := E ≤ 2 ^ (f.emax - 2) ∧ f.eta ≤ 1 / 2 * f.uu * E

lemma XNear.mulG (hf : AtLeastFloat f) {k l B C m E : ℝ} {X Y : XR} {x y : ℝ} (h : XNear f k B X x) (g : XNear f l C Y y) (gE : Good f E) (hE : B * C ≤ E)
    (hm : k + l + 3 ≤ m) (hkl : 0 ≤ k ∧ 0 ≤ l ∧ k ≤ 100 ∧ l ≤ 100) : XNear f m E (f.arith.mul X Y) (x * y) :=
  (h.mul hf g hkl.1 hkl.2.1 hkl.2.2.1 hkl.2.2.2 hE gE.1 gE.2).mono (by linarith [hkl.1, hkl.2.1]) hm le_rfl

lemma SecondCtx.good {y D T : ℝ} (H : SecondCtx f y D T) : Good f 1 ∧ Good f D ∧ Good f T ∧ Good f (T ^ 2) ∧ Good f (D * T) ∧ Good f (D * T ^ 2) ∧
    Good f (2 * T ^ 2) ∧ Good f (2 * (D * T ^ 2)) ∧ T ≤ T ^ 2 ∧ D ≤ D * T ∧ D * T ≤ D * T ^ 2 := by
  obtain ⟨u0, -⟩ := alf_uu H.hf
  have T1 := H.T1; have D0 := H.D0; have t1 := H.top1; have t2 := H.top2; have e1 := H.eta1; have eD := H.etaD
  have T2 : T ≤ T ^ 2 := by rw [sq]; have := mul_le_mul_of_nonneg_left T1 (show 0 ≤ T by linarith); linarith
  have DT : D ≤ D * T := by have := mul_le_mul_of_nonneg_left T1 D0.le; linarith
  have DT2 : D * T ≤ D * T ^ 2 := mul_le_mul_of_nonneg_left T2 D0.le
  have a1 := mul_le_mul_of_nonneg_left T1 u0.le
  have a2 := mul_le_mul_of_nonneg_left T2 u0.le
  have a3 := mul_le_mul_of_nonneg_left DT u0.le
  have a4 := mul_le_mul_of_nonneg_left DT2 u0.le
  have d0 : 0 ≤ f.uu * D := mul_nonneg u0.le D0.le
  refine ⟨⟨?_, ?_⟩, ⟨?_, ?_⟩, ⟨?_, ?_⟩, ⟨?_, ?_⟩, ⟨?_, ?_⟩, ⟨?_, ?_⟩, ⟨?_, ?_⟩, ⟨?_, ?_⟩, T2, DT, DT2⟩ <;> linarith

lemma entry_of {k B X x E} (h : XNear f k B X x) (hE : k * f.uu * B ≤ E) : ∃ a, X = .fin a ∧ |a - x| ≤ 0 * |x| + E := by
  obtain ⟨a, h1, h2, -⟩ := h
  exact ⟨a, h1, by linarith⟩

set_option maxHeartbeats 1000000 in
lemma local_second {D T : ℝ} (d : XyzDiff) (e : EulXyz) (H : SecondCtx f e.y D T) (hy : |d.v.y| ≤ D) (hz : |d.v.z| ≤ D) :
    ∃ m x, f.arith.xyzLocalToSecondDiff (emb3 d.v) (emb3 e.v) = .ok (embM m) ∧ xyzLocalToSecondDiff d e = .ok x ∧
      EntryNear 0 (100 * f.uu * (D * T ^ 2)) m x := by
  have hf := H.hf
  obtain ⟨g1, gD, gT, gT2, gDT, gDT2, g2T2, g2DT2, oT, oD, oDT⟩ := H.good
  have T1 := H.T1; have D0 := H.D0
  obtain ⟨u0, -⟩ := alf_uu hf
  have T0 : 0 ≤ T := by linarith
  have B0 : 0 ≤ D * T ^ 2 := by positivity
  have uB : 0 ≤ f.uu * (D * T ^ 2) := mul_nonneg u0.le B0
  have uD : f.uu * D ≤ f.uu * (D * T ^ 2) := mul_le_mul_of_nonneg_left (oD.trans oDT) u0.le
  have t3 := H.inv
  have t5 := H.inv2
  have t4 := trig_near hf (Real.abs_cos_le_one e.z)
  have t6 := trig_near hf (Real.abs_sin_le_one e.y)
  have t7 := trig_near hf (Real.abs_sin_le_one e.z)
  have dy : XNear f 0 D (.fin d.v.y) d.v.y := XNear.of _ _ hy
  have dz : XNear f 0 D (.fin d.v.z) d.v.z := XNear.of _ _ hz
  have t8 := t6.mulG hf t6 g1 (m := 7) (by norm_num) (by norm_num) (by norm_num)
  have a1 := dz.neg.mulG hf t3 gDT (m := 8) le_rfl (by norm_num) (by norm_num)
  have a2 := a1.mulG hf t7 gDT (m := 13) (by linarith) (by norm_num) (by norm_num)
  have a3 := dy.mulG hf t4 gD (m := 5) (by linarith) (by norm_num) (by norm_num)
  have a4 := a3.mulG hf t5 gDT2 (m := 18) le_rfl (by norm_num) (by norm_num)
  have a5 := a4.mulG hf t6 gDT2 (m := 23) (by linarith) (by norm_num) (by norm_num)
  have p00 := (a2.mono (k' := 23) (by norm_num) (by norm_num) oDT).add hf a5 (by norm_num) (by linarith [g2DT2.1]) (by linarith [g2DT2.2])
  have b2 := a1.mulG hf t4 gDT (m := 13) (by linarith) (by norm_num) (by norm_num)
  have b3 := dy.mulG hf t5 gDT2 (m := 13) le_rfl (by norm_num) (by norm_num)
  have b4 := b3.mulG hf t6 gDT2 (m := 18) (by linarith) (by norm_num) (by norm_num)
  have b5 := b4.mulG hf t7 gDT2 (m := 23) (by linarith) (by norm_num) (by norm_num)
  have p01 := (b2.mono (k' := 23) (by norm_num) (by norm_num) oDT).sub hf b5 (by norm_num) (by linarith [g2DT2.1]) (by linarith [g2DT2.2])
  have p10 := dz.mulG hf t4 gD (m := 5) (by linarith) (by norm_num) (by norm_num)
  have p11 := dz.neg.mulG hf t7 gD (m := 5) (by linarith) (by norm_num) (by norm_num)
  have c1 := t4.mulG hf t5 gT2 (m := 15) (by linarith) (by norm_num) (by norm_num)
  have c2 := c1.mulG hf t8 gT2 (m := 25) (by linarith) (by norm_num) (by norm_num)
  have c3 := (t4.mono (k' := 25) (B' := T ^ 2) (by norm_num) (by norm_num) (by linarith)).add hf c2 (by norm_num) (by linarith [g2T2.1]) (by linarith [g2T2.2])
  have c4 := dy.neg.mulG hf c3 g2DT2 (m := 30) (by linarith) (by norm_num) (by norm_num)
  have z1 := dz.mulG hf t3 gDT (m := 8) le_rfl (by norm_num) (by norm_num)
  have z2 := z1.mulG hf t6 gDT (m := 13) (by linarith) (by norm_num) (by norm_num)
  have z3 := z2.mulG hf t7 gDT (m := 18) (by linarith) (by norm_num) (by norm_num)
  have t2 := H.top2
  have p20 := c4.add hf (z3.mono (k' := 30) (by norm_num) (by norm_num) oDT) (by norm_num) (by linarith) (by linarith [g2DT2.2])
  have d1 := t5.mulG hf t7 gT2 (m := 15) (by linarith) (by norm_num) (by norm_num)
  have d2 := d1.mulG hf t8 gT2 (m := 25) (by linarith) (by norm_num) (by norm_num)
  have d3 := (t7.mono (k' := 25) (B' := T ^ 2) (by norm_num) (by norm_num) (by linarith)).add hf d2 (by norm_num) (by linarith [g2T2.1]) (by linarith [g2T2.2])
  have d4 := dy.mulG hf d3 g2DT2 (m := 30) (by linarith) (by norm_num) (by norm_num)
  have y2 := z1.mulG hf t4 gDT (m := 13) (by linarith) (by norm_num) (by norm_num)
  have y3 := y2.mulG hf t6 gDT (m := 18) (by linarith) (by norm_num) (by norm_num)
  have p21 := d4.add hf (y3.mono (k' := 30) (by norm_num) (by norm_num) oDT) (by norm_num) (by linarith) (by linarith [g2DT2.2])
  have triv : |(0 : ℝ) - 0| ≤ 0 * |(0 : ℝ)| + 100 * f.uu * (D * T ^ 2) := by rw [sub_self, abs_zero]; linarith
  obtain ⟨m00, q00, r00⟩ := entry_of p00 (E := 100 * f.uu * (D * T ^ 2)) (by linarith)
  obtain ⟨m01, q01, r01⟩ := entry_of p01 (E := 100 * f.uu * (D * T ^ 2)) (by linarith)
  obtain ⟨m10, q10, r10⟩ := entry_of p10 (E := 100 * f.uu * (D * T ^ 2)) (by linarith)
  obtain ⟨m11, q11, r11⟩ := entry_of p11 (E := 100 * f.uu * (D * T ^ 2)) (by linarith)
  obtain ⟨m20, q20, r20⟩ := entry_of p20 (E := 100 * f.uu * (D * T ^ 2)) (by linarith)
  obtain ⟨m21, q21, r21⟩ := entry_of p21 (E := 100 * f.uu * (D * T ^ 2)) (by linarith)
  refine ⟨⟨m00, m01, 0, m10, m11, 0, m20, m21, 0⟩, ⟨_, _, 0, _, _, 0, _, _, 0⟩, ?_, ?_, r00, r01, triv, r10, r11, triv, r20, r21, triv⟩
  · unfold XArith.xyzLocalToSecondDiff
    dsimp only
    rw [if_pos (show ¬ (f.arith.cos (emb3 e.v).y).eq (.fin 0) from H.cos)]
    unfold embM
    rw [← q00, ← q01, ← q10, ← q11, ← q20, ← q21]
    rfl
  · unfold xyzLocalToSecondDiff
    dsimp only
    rw [if_pos (show Real.cos e.y ≠ 0 from H.c0)]

set_option maxHeartbeats 1000000 in
lemma global_second {D T : ℝ} (d : XyzDiff) (e : EulXyz) (H : SecondCtx f e.y D T) (hx : |d.v.x| ≤ D) (hy : |d.v.y| ≤ D) :
    ∃ m x, f.arith.xyzGlobalToSecondDiff (emb3 d.v) (emb3 e.v) = .ok (embM m) ∧ xyzGlobalToSecondDiff d e = .ok x ∧
      EntryNear 0 (100 * f.uu * (D * T ^ 2)) m x := by
  have hf := H.hf
  obtain ⟨g1, gD, gT, gT2, gDT, gDT2, g2T2, g2DT2, oT, oD, oDT⟩ := H.good
  have T1 := H.T1; have D0 := H.D0
  obtain ⟨u0, -⟩ := alf_uu hf
  have T0 : 0 ≤ T := by linarith
  have B0 : 0 ≤ D * T ^ 2 := by positivity
  have uB : 0 ≤ f.uu * (D * T ^ 2) := mul_nonneg u0.le B0
  have uD : f.uu * D ≤ f.uu * (D * T ^ 2) := mul_le_mul_of_nonneg_left (oD.trans oDT) u0.le
  have t8 := H.inv
  have t6 := H.inv2
  have t2 := trig_near hf (Real.abs_sin_le_one e.x)
  have t3 := trig_near hf (Real.abs_sin_le_one e.y)
  have t5 := trig_near hf (Real.abs_cos_le_one e.x)
  have dx : XNear f 0 D (.fin d.v.x) d.v.x := XNear.of _ _ hx
  have dy : XNear f 0 D (.fin d.v.y) d.v.y := XNear.of _ _ hy
  have t7 := t3.mulG hf t3 g1 (m := 7) (by norm_num) (by norm_num) (by norm_num)
  have tp := H.top2
  have c1 := t2.mulG hf t6 gT2 (m := 15) (by linarith) (by norm_num) (by norm_num)
  have c2 := c1.mulG hf t7 gT2 (m := 25) (by linarith) (by norm_num) (by norm_num)
  have c3 := (t2.mono (k' := 25) (B' := T ^ 2) (by norm_num) (by norm_num) (by linarith)).add hf c2 (by norm_num) (by linarith [g2T2.1]) (by linarith [g2T2.2])
  have c4 := dy.mulG hf c3 g2DT2 (m := 30) (by linarith) (by norm_num) (by norm_num)
  have z1 := dx.mulG hf t3 gD (m := 5) (by linarith) (by norm_num) (by norm_num)
  have z2 := z1.mulG hf t5 gD (m := 10) (by linarith) (by norm_num) (by norm_num)
  have z3 := z2.mulG hf t8 gDT (m := 18) le_rfl (by norm_num) (by norm_num)
  have p01 := c4.add hf (z3.mono (k' := 30) (by norm_num) (by norm_num) oDT) (by norm_num) (by linarith) (by linarith [g2DT2.2])
  have d1 := t5.mulG hf t6 gT2 (m := 15) (by linarith) (by norm_num) (by norm_num)
  have d2 := d1.mulG hf t7 gT2 (m := 25) (by linarith) (by norm_num) (by norm_num)
  have d3 := (t5.mono (k' := 25) (B' := T ^ 2) (by norm_num) (by norm_num) (by linarith)).add hf d2 (by norm_num) (by linarith [g2T2.1]) (by linarith [g2T2.2])
  have d4 := dy.neg.mulG hf d3 g2DT2 (m := 30) (by linarith) (by norm_num) (by norm_num)
  have y1 := dx.mulG hf t2 gD (m := 5) (by linarith) (by norm_num) (by norm_num)
  have y2 := y1.mulG hf t3 gD (m := 10) (by linarith) (by norm_num) (by norm_num)
  have y3 := y2.mulG hf t8 gDT (m := 18) le_rfl (by norm_num) (by norm_num)
  have p02 := d4.add hf (y3.mono (k' := 30) (by norm_num) (by norm_num) oDT) (by norm_num) (by linarith) (by linarith [g2DT2.2])
  have p11 := dx.neg.mulG hf t2 gD (m := 5) (by linarith) (by norm_num) (by norm_num)
  have p12 := dx.mulG hf t5 gD (m := 5) (by linarith) (by norm_num) (by norm_num)
  have a1 := dx.neg.mulG hf t5 gD (m := 5) (by linarith) (by norm_num) (by norm_num)
  have a2 := a1.mulG hf t8 gDT (m := 13) le_rfl (by norm_num) (by norm_num)
  have a3 := dy.mulG hf t2 gD (m := 5) (by linarith) (by norm_num) (by norm_num)
  have a4 := a3.mulG hf t3 gD (m := 10) (by linarith) (by norm_num) (by norm_num)
  have a5 := a4.mulG hf t6 gDT2 (m := 23) le_rfl (by norm_num) (by norm_num)
  have p21 := (a2.mono (k' := 23) (by norm_num) (by norm_num) oDT).sub hf a5 (by norm_num) (by linarith [g2DT2.1]) (by linarith [g2DT2.2])
  have b2 := p11.mulG hf t8 gDT (m := 13) le_rfl (by norm_num) (by norm_num)
  have b3 := dy.mulG hf t3 gD (m := 5) (by linarith) (by norm_num) (by norm_num)
  have b4 := b3.mulG hf t5 gD (m := 10) (by linarith) (by norm_num) (by norm_num)
  have b5 := b4.mulG hf t6 gDT2 (m := 23) le_rfl (by norm_num) (by norm_num)
  have p22 := (b2.mono (k' := 23) (by norm_num) (by norm_num) oDT).add hf b5 (by norm_num) (by linarith [g2DT2.1]) (by linarith [g2DT2.2])
  have triv : |(0 : ℝ) - 0| ≤ 0 * |(0 : ℝ)| + 100 * f.uu * (D * T ^ 2) := by rw [sub_self, abs_zero]; linarith
  obtain ⟨m01, q01, r01⟩ := entry_of p01 (E := 100 * f.uu * (D * T ^ 2)) (by linarith)
  obtain ⟨m02, q02, r02⟩ := entry_of p02 (E := 100 * f.uu * (D * T ^ 2)) (by linarith)
  obtain ⟨m11, q11, r11⟩ := entry_of p11 (E := 100 * f.uu * (D * T ^ 2)) (by linarith)
  obtain ⟨m12, q12, r12⟩ := entry_of p12 (E := 100 * f.uu * (D * T ^ 2)) (by linarith)
  obtain ⟨m21, q21, r21⟩ := entry_of p21 (E := 100 * f.uu * (D * T ^ 2)) (by linarith)
  obtain ⟨m22, q22, r22⟩ := entry_of p22 (E := 100 * f.uu * (D * T ^ 2)) (by linarith)
  refine ⟨⟨0, m01, m02, 0, m11, m12, 0, m21, m22⟩, ⟨0, _, _, 0, _, _, 0, _, _⟩, ?_, ?_, triv, r01, r02, triv, r11, r12, triv, r21, r22⟩
  · unfold XArith.xyzGlobalToSecondDiff
    dsimp only
    rw [if_pos (show ¬ (f.arith.cos (emb3 e.v).y).eq (.fin 0) from H.cos)]
    unfold embM
    rw [← q01, ← q02, ← q11, ← q12, ← q21, ← q22]
    rfl
  · unfold xyzGlobalToSecondDiff
    dsimp only
    rw [if_pos (show Real.cos e.y ≠ 0 from H.c0)]

/-- **C121 (a).** The mappings from local and global angular velocity to the second derivatives of `EulerAnglesXyz`, in IEEE arithmetic. -/
theorem C121_second (hf : AtLeastFloat f) (d : XyzDiff) (e : EulXyz) (hc : 2 ^ (f.emin + f.p) ≤ Real.cos e.y ^ 2) :
    (|d.v.y| + |d.v.z| + 1 ≤ 2 ^ (f.emax - 5) * Real.cos e.y ^ 2 →
      SecondAccurate f (|d.v.y| + |d.v.z|) e.y (f.arith.xyzLocalToSecondDiff (emb3 d.v) (emb3 e.v)) (xyzLocalToSecondDiff d e)) ∧
    (|d.v.x| + |d.v.y| + 1 ≤ 2 ^ (f.emax - 5) * Real.cos e.y ^ 2 →
      SecondAccurate f (|d.v.x| + |d.v.y|) e.y (f.arith.xyzGlobalToSecondDiff (emb3 d.v) (emb3 e.v)) (xyzGlobalToSecondDiff d e)) := by
  have p : (0 : ℝ) < 2 ^ (f.emin + f.p) := by positivity
  have x0 := abs_nonneg d.v.x; have y0 := abs_nonneg d.v.y; have z0 := abs_nonneg d.v.z
  have eq : ∀ D : ℝ, 100 * f.uu * (D * |1 / Real.cos e.y| ^ 2) = 100 * 2⁻¹ ^ f.p * D / Real.cos e.y ^ 2 := fun D => by
    rw [sq_abs, one_div, inv_pow, div_eq_mul_inv]; unfold uu; ring
  refine ⟨fun h => ?_, fun h => ?_⟩
  · obtain ⟨m, x, h1, h2, h3⟩ := local_second d e (secondCtx hf (by linarith) hc h) (by linarith) (by linarith)
    rw [eq] at h3
    exact ⟨m, x, h1, h2, h3⟩
  · obtain ⟨m, x, h1, h2, h3⟩ := global_second d e (secondCtx hf (by linarith) hc h) (by linarith) (by linarith)
    rw [eq] at h3
    exact ⟨m, x, h1, h2, h3⟩

/-- The hypotheses of `secondCtx` for stored angles. -/
lemma stored_ctx {f : Format} (hf : f = double ∨ f = float) {y : ℝ} (hs : Storable f y) (hy : |y| ≤ 4) :
    AtLeastFloat f ∧ 2 ^ (f.emin + f.p) ≤ Real.cos y ^ 2 ∧ 3 * (2 : ℝ) ^ (f.emax - 2 * f.p - 9) + 1 ≤ 2 ^ (f.emax - 5) * Real.cos y ^ 2 := by
  have alf : AtLeastFloat f := by rcases hf with rfl | rfl; exacts [double_alf, float_alf]
  have k1 : 2⁻¹ ^ (f.p + 1) ≤ |Real.cos y| := by
    rcases hf with rfl | rfl
    · refine le_trans ?_ ((C120_cosine y).2.1 hs hy); norm_num [double]
    · refine le_trans ?_ ((C120_cosine y).2.2 hs hy); norm_num [float]
  have k2 : (2 : ℝ) ^ (-2 * (f.p : ℤ) - 2) ≤ Real.cos y ^ 2 := by
    have := pow_le_pow_left₀ (by positivity) k1 2
    rw [sq_abs] at this
    refine le_trans (le_of_eq ?_) this
    rw [sq, inv_pow, ← zpow_natCast, ← zpow_neg, ← zpow_add₀ (by norm_num)]
    congr 1; push_cast; ring
  have k3 : (2 : ℝ) ^ (f.emin + f.p) ≤ Real.cos y ^ 2 := by
    refine le_trans (zpow_le_zpow_right₀ (by norm_num) ?_) k2
    rcases hf with rfl | rfl <;> norm_num [double, float]
  have k4 : 3 * (2 : ℝ) ^ (f.emax - 2 * f.p - 9) + 1 ≤ 2 ^ (f.emax - 5) * Real.cos y ^ 2 := by
    refine le_trans ?_ (mul_le_mul_of_nonneg_left k2 (by positivity))
    rw [← zpow_add₀ (by norm_num), show f.emax - 5 + (-2 * (f.p : ℤ) - 2) = 2 + (f.emax - 2 * f.p - 9) by ring, zpow_add₀ (by norm_num)]
    have : (1 : ℝ) ≤ 2 ^ (f.emax - 2 * f.p - 9) := by
      rw [show (1 : ℝ) = 2 ^ (0 : ℤ) by norm_num]
      refine zpow_le_zpow_right₀ (by norm_num) ?_
      rcases hf with rfl | rfl <;> norm_num [double, float]
    rw [show (2 : ℝ) ^ (2 : ℤ) = 4 by norm_num]; linarith
  exact ⟨alf, k3, k4⟩

/-- **C121 (finding).** For a second angle up to `4` stored in `double` or `float` (and rates that are not astronomically large) the second mappings
never throw "Gimbal lock: cos(y) is zero!". -/
theorem C121_no_exception (f : Format) (hf : f = double ∨ f = float) (d : XyzDiff) (e : EulXyz) (hs : Storable f e.y) (hy : |e.y| ≤ 4)
    (hd : |d.v.x| ≤ 2 ^ (f.emax - 2 * f.p - 9) ∧ |d.v.y| ≤ 2 ^ (f.emax - 2 * f.p - 9) ∧ |d.v.z| ≤ 2 ^ (f.emax - 2 * f.p - 9)) :
    SecondAccurate f (|d.v.y| + |d.v.z|) e.y (f.arith.xyzLocalToSecondDiff (emb3 d.v) (emb3 e.v)) (xyzLocalToSecondDiff d e) ∧
    SecondAccurate f (|d.v.x| + |d.v.y|) e.y (f.arith.xyzGlobalToSecondDiff (emb3 d.v) (emb3 e.v)) (xyzGlobalToSecondDiff d e) := by
  obtain ⟨alf, k3, k4⟩ := stored_ctx hf hs hy
  have q : (0 : ℝ) < 2 ^ (f.emax - 2 * f.p - 9) := by positivity
  obtain ⟨r1, r2⟩ := C121_second alf d e k3
  exact ⟨r1 (by linarith), r2 (by linarith)⟩

/-- One component of the product of a rate mapping and an angular velocity. -/
lemma dot_near {y D T : ℝ} (H : SecondCtx f y D T) {w : V3} (hx : |w.x| ≤ D) (hy : |w.y| ≤ D) (hz : |w.z| ≤ D) {A B C : XR} {a b c : ℝ}
    (hA : XNear f 15 T A a) (hB : XNear f 15 T B b) (hC : XNear f 15 T C c) :
    ∃ r, f.arith.dot3 ⟨A, B, C⟩ (emb3 w) = .fin r ∧ XNear f 22 (3 * (D * T)) (.fin r) (a * w.x + b * w.y + c * w.z) := by
  have hf := H.hf
  obtain ⟨g1, gD, gT, gT2, gDT, gDT2, g2T2, g2DT2, oT, oD, oDT⟩ := H.good
  have D0 := H.D0; have T1 := H.T1; have top := H.top2
  obtain ⟨u0, -⟩ := alf_uu hf
  have uB : 0 ≤ f.uu * (D * T) := mul_nonneg u0.le (by linarith)
  have q1 := hA.mulG hf (XNear.of w.x D hx) gDT (m := 18) (by linarith) (by norm_num) (by norm_num)
  have q2 := hB.mulG hf (XNear.of w.y D hy) gDT (m := 18) (by linarith) (by norm_num) (by norm_num)
  have q3 := hC.mulG hf (XNear.of w.z D hz) gDT (m := 20) (by linarith) (by norm_num) (by norm_num)
  have s1 := q1.add hf q2 (by norm_num) (by linarith) (by linarith [gDT.2])
  have s2 := (s1.mono (k' := 20) (by norm_num) (by norm_num) le_rfl).add hf q3 (by norm_num) (by linarith) (by linarith [gDT.2])
  obtain ⟨r, h1, h2, h3⟩ := s2.mono (k' := 22) (B' := 3 * (D * T)) (by norm_num) (by norm_num) (by linarith)
  exact ⟨r, h1, r, rfl, h2, h3⟩

/-- All three components. -/
def Near3 (f : Format) (k B : ℝ) (r x : V3) : Prop := XNear f k B (.fin r.x) x.x ∧ XNear f k B (.fin r.y) x.y ∧ XNear f k B (.fin r.z) x.z

lemma mulVec_near {y : ℝ} {D T : ℝ} (H : SecondCtx f y D T) {w : V3} (hx : |w.x| ≤ D) (hy : |w.y| ≤ D) (hz : |w.z| ≤ D) {M : XM3} {m : M3}
    (h00 : XNear f 15 T M.m00 m.m00) (h01 : XNear f 15 T M.m01 m.m01) (h02 : XNear f 15 T M.m02 m.m02)
    (h10 : XNear f 15 T M.m10 m.m10) (h11 : XNear f 15 T M.m11 m.m11) (h12 : XNear f 15 T M.m12 m.m12)
    (h20 : XNear f 15 T M.m20 m.m20) (h21 : XNear f 15 T M.m21 m.m21) (h22 : XNear f 15 T M.m22 m.m22) :
    ∃ r : V3, f.arith.mulVec M (emb3 w) = emb3 r ∧ Near3 f 22 (3 * (D * T)) r (m.mulVec w) := by
  obtain ⟨r0, e0, b0⟩ := dot_near H hx hy hz h00 h01 h02
  obtain ⟨r1, e1, b1⟩ := dot_near H hx hy hz h10 h11 h12
  obtain ⟨r2, e2, b2⟩ := dot_near H hx hy hz h20 h21 h22
  refine ⟨⟨r0, r1, r2⟩, ?_, b0, b1, b2⟩
  unfold XArith.mulVec emb3
  change (⟨f.arith.dot3 ⟨M.m00, M.m01, M.m02⟩ (emb3 w), f.arith.dot3 ⟨M.m10, M.m11, M.m12⟩ (emb3 w), f.arith.dot3 ⟨M.m20, M.m21, M.m22⟩ (emb3 w)⟩ : XV3) = _
  rw [e0, e1, e2]

/-- The rates with the magnitudes that bound them. -/
lemma rates_near (hf : AtLeastFloat f) (e : EulXyz) (g : EulZyx) (w : LocalAV) :
    (2 ^ (f.emin + f.p) ≤ Real.cos e.y ^ 2 → |w.v.x| + |w.v.y| + |w.v.z| + 1 ≤ 2 ^ (f.emax - 5) * Real.cos e.y ^ 2 →
      ∃ r x, f.arith.xyzDiffOfLocal (emb3 e.v) (emb3 w.v) = .ok (emb3 r) ∧ xyzDiffOfLocal e w = .ok x ∧
        Near3 f 22 (3 * ((|w.v.x| + |w.v.y| + |w.v.z| + 2 ^ (f.emin + f.p)) * |1 / Real.cos e.y|)) r x.v) ∧
    (2 ^ (f.emin + f.p) ≤ Real.cos g.y ^ 2 → |w.v.x| + |w.v.y| + |w.v.z| + 1 ≤ 2 ^ (f.emax - 5) * Real.cos g.y ^ 2 →
      ∃ r x, f.arith.zyxDiffOfLocal (emb3 g.v) (emb3 w.v) = .ok (emb3 r) ∧ zyxDiffOfLocal g w = .ok x ∧
        Near3 f 22 (3 * ((|w.v.x| + |w.v.y| + |w.v.z| + 2 ^ (f.emin + f.p)) * |1 / Real.cos g.y|)) r x.v) := by
  have p : (0 : ℝ) < 2 ^ (f.emin + f.p) := by positivity
  have x0 := abs_nonneg w.v.x; have y0 := abs_nonneg w.v.y; have z0 := abs_nonneg w.v.z
  refine ⟨fun hc h => ?_, fun hc h => ?_⟩
  · have H := secondCtx hf (by linarith) hc h
    obtain ⟨g1, gD, gT, gT2, gDT, gDT2, g2T2, g2DT2, oT, oD, oDT⟩ := H.good
    have T1 := H.T1
    have t3 := H.inv
    have t4 := trig_near hf (Real.abs_sin_le_one e.z)
    have t5 := trig_near hf (Real.abs_cos_le_one e.z)
    have t6 := trig_near hf (Real.abs_sin_le_one e.y)
    have wk : ∀ {k B : ℝ} {X x}, XNear f k B X x → k ≤ 15 → B ≤ |1 / Real.cos e.y| → XNear f 15 |1 / Real.cos e.y| X x := fun h a b => h.mono (by norm_num) a b
    have zr : XNear f 15 |1 / Real.cos e.y| (.fin 0) 0 := wk (XNear.of 0 1 (by norm_num)) (by norm_num) T1
    have on : XNear f 15 |1 / Real.cos e.y| (.fin 1) 1 := wk (XNear.of 1 1 (by norm_num)) (by norm_num) T1
    have a1 := t3.mulG hf t5 gT (m := 10) (by linarith) (by norm_num) (by norm_num)
    have a2 := t3.neg.mulG hf t4 gT (m := 10) (by linarith) (by norm_num) (by norm_num)
    have a3 := t3.neg.mulG hf t5 gT (m := 10) (by linarith) (by norm_num) (by norm_num)
    have a4 := a3.mulG hf t6 gT (m := 15) (by linarith) (by norm_num) (by norm_num)
    have a5 := t3.mulG hf t4 gT (m := 10) (by linarith) (by norm_num) (by norm_num)
    have a6 := a5.mulG hf t6 gT (m := 15) (by linarith) (by norm_num) (by norm_num)
    obtain ⟨r, q1, q2⟩ := mulVec_near H (w := w.v) (M := ⟨_, _, _, _, _, _, _, _, _⟩) (m := ⟨_, _, _, _, _, _, _, _, _⟩) (by linarith) (by linarith) (by linarith)
      (wk a1 (by norm_num) le_rfl) (wk a2 (by norm_num) le_rfl) zr (wk t4 (by norm_num) T1) (wk t5 (by norm_num) T1) zr (wk a4 le_rfl le_rfl)
      (wk a6 le_rfl le_rfl) on
    refine ⟨r, ⟨_⟩, ?_, ?_, q2⟩
    · unfold XArith.xyzDiffOfLocal XArith.xyzLocalToDiff
      dsimp only
      rw [if_pos (show ¬ (f.arith.cos (emb3 e.v).y).eq (.fin 0) from H.cos), ← q1]
      rfl
    · unfold xyzDiffOfLocal xyzLocalToDiff
      dsimp only
      rw [if_pos (show Real.cos e.y ≠ 0 from H.c0)]
      rfl
  · have H := secondCtx hf (by linarith) hc h
    obtain ⟨g1, gD, gT, gT2, gDT, gDT2, g2T2, g2DT2, oT, oD, oDT⟩ := H.good
    have T1 := H.T1
    have t3 := H.inv
    have t4 := trig_near hf (Real.abs_cos_le_one g.x)
    have t5 := trig_near hf (Real.abs_sin_le_one g.x)
    have t6 := trig_near hf (Real.abs_sin_le_one g.y)
    have wk : ∀ {k B : ℝ} {X x}, XNear f k B X x → k ≤ 15 → B ≤ |1 / Real.cos g.y| → XNear f 15 |1 / Real.cos g.y| X x := fun h a b => h.mono (by norm_num) a b
    have zr : XNear f 15 |1 / Real.cos g.y| (.fin 0) 0 := wk (XNear.of 0 1 (by norm_num)) (by norm_num) T1
    have on : XNear f 15 |1 / Real.cos g.y| (.fin 1) 1 := wk (XNear.of 1 1 (by norm_num)) (by norm_num) T1
    have a1 := t3.mulG hf t5 gT (m := 10) (by linarith) (by norm_num) (by norm_num)
    have a2 := t3.mulG hf t4 gT (m := 10) (by linarith) (by norm_num) (by norm_num)
    have a3 := a1.mulG hf t6 gT (m := 15) (by linarith) (by norm_num) (by norm_num)
    have a4 := a2.mulG hf t6 gT (m := 15) (by linarith) (by norm_num) (by norm_num)
    obtain ⟨r, q1, q2⟩ := mulVec_near H (w := w.v) (M := ⟨_, _, _, _, _, _, _, _, _⟩) (m := ⟨_, _, _, _, _, _, _, _, _⟩) (by linarith) (by linarith) (by linarith)
      zr (wk a1 (by norm_num) le_rfl) (wk a2 (by norm_num) le_rfl) zr (wk t4 (by norm_num) T1) (wk t5.neg (by norm_num) T1) on (wk a3 le_rfl le_rfl)
      (wk a4 le_rfl le_rfl)
    refine ⟨r, ⟨_⟩, ?_, ?_, q2⟩
    · unfold XArith.zyxDiffOfLocal XArith.zyxLocalToDiff
      dsimp only
      rw [if_pos (show ¬ (f.arith.cos (emb3 g.v).y).eq (.fin 0) from H.cos), ← q1]
      rfl
    · unfold zyxDiffOfLocal zyxLocalToDiff
      dsimp only
      rw [if_pos (show Real.cos g.y ≠ 0 from H.c0)]
      rfl

/-- **C121 (b).** Euler-angle rates constructed from a local angular velocity, in IEEE arithmetic. -/
theorem C121_rates (hf : AtLeastFloat f) (e : EulXyz) (g : EulZyx) (w : LocalAV) :
    (2 ^ (f.emin + f.p) ≤ Real.cos e.y ^ 2 → |w.v.x| + |w.v.y| + |w.v.z| + 1 ≤ 2 ^ (f.emax - 5) * Real.cos e.y ^ 2 →
      DiffAccurate f w.v e.y (f.arith.xyzDiffOfLocal (emb3 e.v) (emb3 w.v)) (mapRes XyzDiff.v (xyzDiffOfLocal e w))) ∧
    (2 ^ (f.emin + f.p) ≤ Real.cos g.y ^ 2 → |w.v.x| + |w.v.y| + |w.v.z| + 1 ≤ 2 ^ (f.emax - 5) * Real.cos g.y ^ 2 →
      DiffAccurate f w.v g.y (f.arith.zyxDiffOfLocal (emb3 g.v) (emb3 w.v)) (mapRes ZyxDiff.v (zyxDiffOfLocal g w))) := by
  have x0 := abs_nonneg w.v.x; have y0 := abs_nonneg w.v.y; have z0 := abs_nonneg w.v.z
  obtain ⟨u0, -⟩ := alf_uu hf
  have key : ∀ (y D : ℝ) (r x : V3), 0 ≤ D → Near3 f 22 (3 * (D * |1 / Real.cos y|)) r x →
      |r.x - x.x| ≤ 100 * 2⁻¹ ^ f.p * D / |Real.cos y| ∧ |r.y - x.y| ≤ 100 * 2⁻¹ ^ f.p * D / |Real.cos y| ∧ |r.z - x.z| ≤ 100 * 2⁻¹ ^ f.p * D / |Real.cos y| := by
    intro y D r x D0 h
    have eq : 100 * 2⁻¹ ^ f.p * D / |Real.cos y| = 100 * f.uu * (D * |1 / Real.cos y|) := by
      rw [one_div, abs_inv, div_eq_mul_inv]; unfold uu; ring
    have n : 0 ≤ f.uu * (D * |1 / Real.cos y|) := by positivity
    have one : ∀ {a b : ℝ}, XNear f 22 (3 * (D * |1 / Real.cos y|)) (.fin a) b → |a - b| ≤ 100 * f.uu * (D * |1 / Real.cos y|) := by
      rintro a b ⟨c, hc, h1, -⟩
      injection hc with hc
      rw [hc]; linarith
    rw [eq]
    exact ⟨one h.1, one h.2.1, one h.2.2⟩
  have p : (0 : ℝ) < 2 ^ (f.emin + f.p) := by positivity
  obtain ⟨k1, k2⟩ := rates_near hf e g w
  refine ⟨fun hc h => ?_, fun hc h => ?_⟩
  · obtain ⟨r, x, h1, h2, h3⟩ := k1 hc h
    exact ⟨r, x.v, h1, by rw [h2]; rfl, key _ _ _ _ (by linarith) h3⟩
  · obtain ⟨r, x, h1, h2, h3⟩ := k2 hc h
    exact ⟨r, x.v, h1, by rw [h2]; rfl, key _ _ _ _ (by linarith) h3⟩

/-- **C121 (finding).** Nor do the constructors of the Euler-angle rates from a local angular velocity throw. -/
theorem C121_rates_no_exception (f : Format) (hf : f = double ∨ f = float) (e : EulXyz) (g : EulZyx) (w : LocalAV)
    (hw : |w.v.x| ≤ 2 ^ (f.emax - 2 * f.p - 9) ∧ |w.v.y| ≤ 2 ^ (f.emax - 2 * f.p - 9) ∧ |w.v.z| ≤ 2 ^ (f.emax - 2 * f.p - 9)) :
    (Storable f e.y → |e.y| ≤ 4 →
      DiffAccurate f w.v e.y (f.arith.xyzDiffOfLocal (emb3 e.v) (emb3 w.v)) (mapRes XyzDiff.v (xyzDiffOfLocal e w))) ∧
    (Storable f g.y → |g.y| ≤ 4 →
      DiffAccurate f w.v g.y (f.arith.zyxDiffOfLocal (emb3 g.v) (emb3 w.v)) (mapRes ZyxDiff.v (zyxDiffOfLocal g w))) := by
  refine ⟨fun h1 h2 => ?_, fun h1 h2 => ?_⟩
  · obtain ⟨a, k, l⟩ := stored_ctx hf h1 h2
    exact (C121_rates a e g w).1 k (by linarith)
  · obtain ⟨a, k, l⟩ := stored_ctx hf h1 h2
    exact (C121_rates a e g w).2 k (by linarith)

/-- **C121 (example).** The hypotheses hold at the `double` nearest to `π / 2` and for rates of a million. -/
theorem C121_example : Storable double halfPiDouble ∧ |halfPiDouble| ≤ 4 ∧
    (2 : ℝ) ^ (double.emax - 2 * double.p - 9) ≥ 10 ^ 6 ∧ (2 : ℝ) ^ (float.emax - 2 * float.p - 9) ≥ 10 ^ 6 ∧
    SecondAccurate double (10 ^ 6 + 10 ^ 6) halfPiDouble (double.arith.xyzLocalToSecondDiff (emb3 ⟨0, 10 ^ 6, 10 ^ 6⟩) (emb3 ⟨1, halfPiDouble, 2⟩))
      (xyzLocalToSecondDiff ⟨⟨0, 10 ^ 6, 10 ^ 6⟩⟩ ⟨⟨1, halfPiDouble, 2⟩⟩) := by
  have a : (2 : ℝ) ^ (double.emax - 2 * double.p - 9) ≥ 10 ^ 6 := by
    refine ge_iff_le.mpr (le_trans (b := (2 : ℝ) ^ (20 : ℤ)) (by norm_num) (zpow_le_zpow_right₀ (by norm_num) (by norm_num [double])))
  have b : (2 : ℝ) ^ (float.emax - 2 * float.p - 9) ≥ 10 ^ 6 := by
    refine ge_iff_le.mpr (le_trans (b := (2 : ℝ) ^ (20 : ℤ)) (by norm_num) (zpow_le_zpow_right₀ (by norm_num) (by norm_num [float])))
  obtain ⟨s, h4, -, -⟩ := C120_example
  refine ⟨s, h4, a, b, ?_⟩
  have m : |(10 : ℝ) ^ 6| = 10 ^ 6 := abs_of_pos (by norm_num)
  have := (C121_no_exception double (.inl rfl) ⟨⟨0, 10 ^ 6, 10 ^ 6⟩⟩ ⟨⟨1, halfPiDouble, 2⟩⟩ s h4 ⟨by rw [abs_zero]; positivity, by rw [m]; exact a, by rw [m]; exact a⟩).1
  dsimp only at this
  rw [m] at this
  exact this

lemma good_of (hf : AtLeastFloat f) {s : ℝ} (hs : 0 ≤ s) (h : s ≤ 2 ^ (f.emax - 5)) :
    Good f (s + 2 ^ (f.emin + f.p)) ∧ Good f (2 * (s + 2 ^ (f.emin + f.p))) := by
  obtain ⟨u0, -⟩ := alf_uu hf
  have ue : f.uu * 2 ^ (f.emin + f.p) = 2 * f.eta := by
    unfold uu eta
    rw [inv_pow, ← zpow_natCast, ← zpow_neg, ← zpow_add₀ (by norm_num), ← zpow_one_add₀ (by norm_num)]
    congr 1; ring
  have e8 : (2 : ℝ) ^ (f.emax - 2) = 8 * 2 ^ (f.emax - 5) := by
    rw [show (8 : ℝ) = 2 ^ (3 : ℤ) by norm_num, ← zpow_add₀ (by norm_num)]; congr 1; ring
  have e1 : (2 : ℝ) ^ (f.emin + f.p) ≤ 2 ^ (f.emax - 5) := zpow_le_zpow_right₀ (by norm_num) (by have := hf.emin; have := hf.emax; have := hf.p; omega)
  have := mul_nonneg u0.le hs
  have eta0 : 0 < f.eta := eta_pos
  refine ⟨⟨by linarith, ?_⟩, by linarith, ?_⟩
  · rw [mul_assoc, mul_add, ue]; linarith
  · rw [show 1 / 2 * f.uu * (2 * (s + 2 ^ (f.emin + (f.p : ℤ)))) = f.uu * s + f.uu * 2 ^ (f.emin + (f.p : ℤ)) by ring, ue]; linarith

set_option maxHeartbeats 1000000 in
/-- **C121 (c).** The mappings from second derivatives of `EulerAnglesXyz` to angular accelerations, which have no singularity, in IEEE arithmetic. -/
theorem C121_inverse (hf : AtLeastFloat f) (d : XyzDiff) (e : EulXyz) :
    (|d.v.y| + |d.v.z| ≤ 2 ^ (f.emax - 5) → ∃ m, f.arith.xyzSecondDiffToLocal (emb3 d.v) (emb3 e.v) = embM m ∧
      EntryNear 0 (30 * 2⁻¹ ^ f.p * (|d.v.y| + |d.v.z| + 2 ^ (f.emin + f.p))) m (xyzSecondDiffToLocal d e)) ∧
    (|d.v.x| + |d.v.y| ≤ 2 ^ (f.emax - 5) → ∃ m, f.arith.xyzSecondDiffToGlobal (emb3 d.v) (emb3 e.v) = embM m ∧
      EntryNear 0 (30 * 2⁻¹ ^ f.p * (|d.v.x| + |d.v.y| + 2 ^ (f.emin + f.p))) m (xyzSecondDiffToGlobal d e)) := by
  have p : (0 : ℝ) < 2 ^ (f.emin + f.p) := by positivity
  have x0 := abs_nonneg d.v.x; have y0 := abs_nonneg d.v.y; have z0 := abs_nonneg d.v.z
  obtain ⟨u0, -⟩ := alf_uu hf
  have ha := good_of hf (s := |d.v.y| + |d.v.z|) (by positivity)
  have hb := good_of hf (s := |d.v.x| + |d.v.y|) (by positivity)
  change (_ → ∃ m, _ ∧ EntryNear 0 (30 * f.uu * _) _ _) ∧ (_ → ∃ m, _ ∧ EntryNear 0 (30 * f.uu * _) _ _)
  refine ⟨fun h => ?_, fun h => ?_⟩
  · obtain ⟨g1, g2⟩ := ha h
    have hy : |d.v.y| ≤ |d.v.y| + |d.v.z| + 2 ^ (f.emin + (f.p : ℤ)) := by linarith
    have hz : |d.v.z| ≤ |d.v.y| + |d.v.z| + 2 ^ (f.emin + (f.p : ℤ)) := by linarith
    generalize |d.v.y| + |d.v.z| + 2 ^ (f.emin + (f.p : ℤ)) = D at *
    have D0 : 0 ≤ D := by linarith
    have uD : 0 ≤ f.uu * D := mul_nonneg u0.le D0
    have dy : XNear f 0 D (.fin d.v.y) d.v.y := XNear.of _ _ hy
    have dz : XNear f 0 D (.fin d.v.z) d.v.z := XNear.of _ _ hz
    have t2 := trig_near hf (Real.abs_cos_le_one e.z)
    have t3 := trig_near hf (Real.abs_cos_le_one e.y)
    have t4 := trig_near hf (Real.abs_sin_le_one e.y)
    have t5 := trig_near hf (Real.abs_sin_le_one e.z)
    have one : ∀ {X Y x y}, XNear f 0 D X x → XNear f 2 1 Y y → XNear f 5 D (f.arith.mul X Y) (x * y) := fun a b =>
      a.mulG hf b g1 (by linarith) (by norm_num) (by norm_num)
    have two : ∀ {X Y Z x y z}, XNear f 0 D X x → XNear f 2 1 Y y → XNear f 2 1 Z z → XNear f 10 D (f.arith.mul (f.arith.mul X Y) Z) (x * y * z) := fun a b c =>
      (one a b).mulG hf c g1 (by linarith) (by norm_num) (by norm_num)
    have p00 := (two dy.neg t2 t4).sub hf (two dz t3 t5) (by norm_num) (by linarith [g2.1]) (by linarith [g2.2])
    have p01 := one dz t2
    have p10 := (two dy t4 t5).sub hf (two dz t2 t3) (by norm_num) (by linarith [g2.1]) (by linarith [g2.2])
    have p11 := one dz.neg t5
    have p20 := one dy t3
    have triv : |(0 : ℝ) - 0| ≤ 0 * |(0 : ℝ)| + 30 * f.uu * D := by rw [sub_self, abs_zero]; linarith
    obtain ⟨m00, q00, r00⟩ := entry_of p00 (E := 30 * f.uu * D) (by linarith)
    obtain ⟨m01, q01, r01⟩ := entry_of p01 (E := 30 * f.uu * D) (by linarith)
    obtain ⟨m10, q10, r10⟩ := entry_of p10 (E := 30 * f.uu * D) (by linarith)
    obtain ⟨m11, q11, r11⟩ := entry_of p11 (E := 30 * f.uu * D) (by linarith)
    obtain ⟨m20, q20, r20⟩ := entry_of p20 (E := 30 * f.uu * D) (by linarith)
    refine ⟨⟨m00, m01, 0, m10, m11, 0, m20, 0, 0⟩, ?_, r00, r01, triv, r10, r11, triv, r20, triv, triv⟩
    unfold XArith.xyzSecondDiffToLocal embM
    dsimp only
    rw [← q00, ← q01, ← q10, ← q11, ← q20]
    rfl
  · obtain ⟨g1, g2⟩ := hb h
    have hx : |d.v.x| ≤ |d.v.x| + |d.v.y| + 2 ^ (f.emin + (f.p : ℤ)) := by linarith
    have hy : |d.v.y| ≤ |d.v.x| + |d.v.y| + 2 ^ (f.emin + (f.p : ℤ)) := by linarith
    generalize |d.v.x| + |d.v.y| + 2 ^ (f.emin + (f.p : ℤ)) = D at *
    have D0 : 0 ≤ D := by linarith
    have uD : 0 ≤ f.uu * D := mul_nonneg u0.le D0
    have dx : XNear f 0 D (.fin d.v.x) d.v.x := XNear.of _ _ hx
    have dy : XNear f 0 D (.fin d.v.y) d.v.y := XNear.of _ _ hy
    have t2 := trig_near hf (Real.abs_cos_le_one e.y)
    have t3 := trig_near hf (Real.abs_sin_le_one e.x)
    have t4 := trig_near hf (Real.abs_cos_le_one e.x)
    have t5 := trig_near hf (Real.abs_sin_le_one e.y)
    have one : ∀ {X Y x y}, XNear f 0 D X x → XNear f 2 1 Y y → XNear f 5 D (f.arith.mul X Y) (x * y) := fun a b =>
      a.mulG hf b g1 (by linarith) (by norm_num) (by norm_num)
    have two : ∀ {X Y Z x y z}, XNear f 0 D X x → XNear f 2 1 Y y → XNear f 2 1 Z z → XNear f 10 D (f.arith.mul (f.arith.mul X Y) Z) (x * y * z) := fun a b c =>
      (one a b).mulG hf c g1 (by linarith) (by norm_num) (by norm_num)
    have p02 := one dy t2
    have p11 := one dx.neg t3
    have p12 := (two dx.neg t2 t4).add hf (two dy t3 t5) (by norm_num) (by linarith [g2.1]) (by linarith [g2.2])
    have p21 := one dx t4
    have p22 := (two dx.neg t2 t3).sub hf (two dy t4 t5) (by norm_num) (by linarith [g2.1]) (by linarith [g2.2])
    have triv : |(0 : ℝ) - 0| ≤ 0 * |(0 : ℝ)| + 30 * f.uu * D := by rw [sub_self, abs_zero]; linarith
    obtain ⟨m02, q02, r02⟩ := entry_of p02 (E := 30 * f.uu * D) (by linarith)
    obtain ⟨m11, q11, r11⟩ := entry_of p11 (E := 30 * f.uu * D) (by linarith)
    obtain ⟨m12, q12, r12⟩ := entry_of p12 (E := 30 * f.uu * D) (by linarith)
    obtain ⟨m21, q21, r21⟩ := entry_of p21 (E := 30 * f.uu * D) (by linarith)
    obtain ⟨m22, q22, r22⟩ := entry_of p22 (E := 30 * f.uu * D) (by linarith)
    refine ⟨⟨0, 0, m02, 0, m11, m12, 0, m21, m22⟩, ?_, triv, triv, r02, triv, r11, r12, triv, r21, r22⟩
    unfold XArith.xyzSecondDiffToGlobal embM
    dsimp only
    rw [← q02, ← q11, ← q12, ← q21, ← q22]
    rfl

/-- The hypothesis of `C121_inverse` for rates of a million. -/
example : |(10 : ℝ) ^ 6| + |(10 : ℝ) ^ 6| ≤ 2 ^ (float.emax - 5) := by
  rw [abs_of_pos (by norm_num)]
  refine le_trans (b := (2 : ℝ) ^ (21 : ℤ)) (by norm_num) (zpow_le_zpow_right₀ (by norm_num) (by norm_num [float]))

end Format
end Kindr
