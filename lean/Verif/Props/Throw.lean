import Verif.Spec.Throw
import Verif.Props.Fix

/-!
# C110: exceptions and the object they leave behind
-/

set_option autoImplicit false

open Classical

noncomputable section
namespace Kindr
open Spec

variable (P : Prec) (dpE : ℝ) (svd : V3 → V3 → V3)

private lemma near_one {x t : ℝ} (hx : 0 ≤ x) : compareRelative x 1 t = true ↔ |x - 1| ≤ t / 100 * max x 1 := by
  rw [C27_compareRelative_iff]
  · rw [abs_of_nonneg hx, abs_one]
  · rw [abs_one]; norm_num

private lemma axis_check (n : V3) (x : ℝ) : normCheck .debug n.norm (1 / 10000) = true ↔ AxisOk ⟨x, n⟩ := by
  simp only [normCheck, near_one n.norm_nonneg, AxisOk]
  norm_num

private lemma axis_ok (a : AngAx) : normCheck .debug a.axis.norm (1 / 10000) = true ↔ AxisOk a := axis_check a.axis a.angle

private lemma qnorm_nonneg (q : Quat) : 0 ≤ q.norm := Real.sqrt_nonneg _

private lemma quat_check (q : Quat) (t : ℝ) : normCheck .debug q.norm t = true ↔ NormOk (t / 100) q := by
  simp only [normCheck, near_one (qnorm_nonneg q), NormOk]

private lemma quat_check4 (q : Quat) : normCheck .debug q.norm (1 / 100) = true ↔ NormOk (1 / 10 ^ 4) q := by
  rw [quat_check]; norm_num

private lemma quat_check6 (q : Quat) : normCheck .debug q.norm (1 / 10000) = true ↔ NormOk (1 / 10 ^ 6) q := by
  rw [quat_check]; norm_num

private lemma ctw_thrown {α : Type} {old new : α} {ok : Bool} (h : (checkThenWrite old new ok).thrown = true) :
    (checkThenWrite old new ok).obj = old := by
  cases ok
  · rfl
  · simp [checkThenWrite] at h

private lemma ctw_ok {α : Type} {old new : α} {ok : Bool} (h : (checkThenWrite old new ok).thrown = false) :
    ok = true ∧ (checkThenWrite old new ok).obj = new := by
  cases ok
  · simp [checkThenWrite] at h
  · simp [checkThenWrite]

private lemma wtc_thrown {α : Type} {new : α} {ok : Bool} : (writeThenCheck new ok).thrown = true ↔ ok = false := by
  cases ok <;> simp [writeThenCheck]

private lemma unit_axis_ok {a : AngAx} (h : a.axis.norm = 1) : AxisOk a := by
  rw [AxisOk, h]; norm_num

private lemma x_axis_norm : (⟨1, 0, 0⟩ : V3).norm = 1 := by
  rw [V3.norm_eq_one_iff]; simp [V3.normSq, V3.dot]

private lemma release_check (x t : ℝ) : normCheck .release x t = true := rfl

private lemma fix_norm (a : AngAx) : (aaFix a).axis.norm = 1 ∨ aaFix a = a := by
  by_cases h : a.axis = 0
  · right
    have : a.axis.normalized = a.axis := by simp [V3.normalized, h, V3.normSq, V3.dot]
    simp only [aaFix, this]
  · left
    exact V3.norm_eq_one_iff.mpr (V3.normSq_normalized h)

/-- **C110 (a).** `AngleAxis`: a call that throws leaves the object as it was, except `setAxis` and `setVector`, which store their
argument first: afterwards the object holds the new axis (and angle), whether the call threw or not.  They throw exactly in a debug
build on an axis that does not have unit length up to `1e-6`. -/
theorem C110_angle_axis (b : Build) (s : AngAx) :
    (∀ c, ¬ AaStoresFirst c → (aaCall P dpE svd b s c).thrown = true → (aaCall P dpE svd b s c).obj = s) ∧
    (∀ n, (aaCall P dpE svd b s (.setAxis n)).obj = ⟨s.angle, n⟩ ∧
      ((aaCall P dpE svd b s (.setAxis n)).thrown = true ↔ b = .debug ∧ ¬ AxisOk ⟨s.angle, n⟩)) ∧
    (∀ a n1 n2 n3, (aaCall P dpE svd b s (.setVector ⟨a, n1, n2, n3⟩)).obj = ⟨a, ⟨n1, n2, n3⟩⟩ ∧
      ((aaCall P dpE svd b s (.setVector ⟨a, n1, n2, n3⟩)).thrown = true ↔ b = .debug ∧ ¬ AxisOk ⟨a, ⟨n1, n2, n3⟩⟩)) ∧
    (∀ c, (aaCall P dpE svd .release s c).thrown = true → ∃ v1 v2, c = .setFromVectors v1 v2 ∧ (v1 = 0 ∨ v2 = 0)) := by
  have hw : ∀ (a : AngAx), (writeThenCheck a (normCheck b a.axis.norm (1 / 10000))).thrown = true ↔ b = .debug ∧ ¬ AxisOk a := by
    intro a
    rw [wtc_thrown]
    cases b
    · rw [← axis_ok]; simp
    · simp [release_check]
  refine ⟨?_, fun n => ⟨rfl, hw _⟩, fun a n1 n2 n3 => ⟨rfl, hw _⟩, ?_⟩
  · intro c hc ht
    cases c with
    | setAngle a => simp [aaCall] at ht
    | setAxis n => exact absurd (Or.inl ⟨n, rfl⟩) hc
    | setVector v => exact absurd (Or.inr ⟨v, rfl⟩) hc
    | setIdentity =>
      exfalso
      have := (hw s.setIdentity).mp ht
      exact this.2 (unit_axis_ok x_axis_norm)
    | invert => exact ctw_thrown ht
    | setUnique => exact ctw_thrown ht
    | fix =>
      have h1 := (hw (aaFix s)).mp ht
      rcases fix_norm s with h | h
      · exact absurd (unit_axis_ok h) h1.2
      · exact h
    | copy a => simp [aaCall] at ht
    | assign k r => exact ctw_thrown ht
    | setFromVectors v1 v2 =>
      simp only [aaCall] at ht ⊢
      split_ifs at ht ⊢
      · exact ctw_thrown ht
      · rfl
  · intro c ht
    cases c with
    | setFromVectors v1 v2 =>
      refine ⟨v1, v2, rfl, ?_⟩
      simp only [aaCall, release_check, Bool.and_self, checkThenWrite, if_true] at ht
      split_ifs at ht with h
      rcases mul_eq_zero.mp (not_not.mp h) with h | h
      · exact Or.inl (V3.norm_eq_zero.mp h)
      · exact Or.inr (V3.norm_eq_zero.mp h)
    | _ => simp [aaCall, writeThenCheck, checkThenWrite, release_check] at ht

/-- **C110 (b).** `RotationQuaternion`: a call that throws leaves the object as it was, except `q(p)` for a plain `Quaternion`, which
stores `p` in either case and throws exactly in a debug build if the norm of `p` is off by more than `1e-6`.  `UnitQuaternion` does the
same with the tolerance `1e-4`.  `RotationMatrix::setMatrix` stores every matrix and never throws. -/
theorem C110_quaternion (b : Build) (s : Quat) :
    (∀ c, ¬ QuatStoresFirst c → (quatCall P dpE svd b s c).thrown = true → (quatCall P dpE svd b s c).obj = s) ∧
    (∀ p, (quatCall P dpE svd b s (.callQuat p)).obj = p ∧
      ((quatCall P dpE svd b s (.callQuat p)).thrown = true ↔ b = .debug ∧ ¬ NormOk (1 / 10 ^ 6) p)) ∧
    (∀ p, (unitCallQuat b s p).obj = p ∧ ((unitCallQuat b s p).thrown = true ↔ b = .debug ∧ ¬ NormOk (1 / 10 ^ 4) p)) ∧
    (∀ m m' : M3, (matSetMatrix b m m').obj = m' ∧ (matSetMatrix b m m').thrown = false) ∧
    (∀ c, (quatCall P dpE svd .release s c).thrown = true → ∃ v1 v2, c = .setFromVectors v1 v2 ∧ (v1 = 0 ∨ v2 = 0)) := by
  refine ⟨?_, ?_, ?_, fun _ _ => ⟨rfl, rfl⟩, ?_⟩
  · intro c hc ht
    cases c with
    | callQuat p => exact absurd ⟨p, rfl⟩ hc
    | assign k r => exact ctw_thrown ht
    | invert => exact ctw_thrown ht
    | setUnique => exact ctw_thrown ht
    | setFromVectors v1 v2 =>
      simp only [quatCall] at ht ⊢
      split_ifs at ht ⊢
      · exact ctw_thrown ht
      · rfl
    | _ => simp [quatCall] at ht
  · intro p
    refine ⟨rfl, ?_⟩
    simp only [quatCall]
    rw [wtc_thrown]
    cases b
    · rw [← quat_check6]; simp
    · simp [release_check]
  · intro p
    refine ⟨rfl, ?_⟩
    simp only [unitCallQuat]
    rw [wtc_thrown]
    cases b
    · rw [← quat_check4]; simp
    · simp [release_check]
  · intro c ht
    cases c with
    | setFromVectors v1 v2 =>
      refine ⟨v1, v2, rfl, ?_⟩
      simp only [quatCall, release_check, checkThenWrite, if_true] at ht
      split_ifs at ht with h
      rcases mul_eq_zero.mp (not_not.mp h) with h | h
      · exact Or.inl (V3.norm_eq_zero.mp h)
      · exact Or.inr (V3.norm_eq_zero.mp h)
    | _ => simp [quatCall, writeThenCheck, checkThenWrite, release_check] at ht

/-! ## Histories -/

private lemma unique_axis (a : AngAx) : (aaGetUnique a).axis.norm = a.axis.norm ∨ (aaGetUnique a).axis.norm = 1 := by
  simp only [aaGetUnique]
  split_ifs <;> simp [x_axis_norm]

private lemma conj_norm (q : Quat) : (UnitQuaternion.inverted q).norm = q.norm := by
  simp [UnitQuaternion.inverted, UnitQuaternion.conjugated, Quat.conj, Quat.norm, Quat.normSq]

private lemma unique_norm (q : Quat) : (quatGetUnique q).norm = q.norm := by
  simp only [quatGetUnique]
  split_ifs <;> simp [Quat.norm, Quat.normSq]

private lemma aa_step {s : AngAx} (hs : AxisOk s) (c : AaCall) (hc : ∀ a, c = .copy a → AxisOk a)
    (ht : (aaCall P dpE svd .debug s c).thrown = true → ¬ AaStoresFirst c) : AxisOk (aaCall P dpE svd .debug s c).obj := by
  have hA := C110_angle_axis P dpE svd .debug s
  by_cases h : (aaCall P dpE svd .debug s c).thrown = true
  · rw [hA.1 c (ht h) h]; exact hs
  rw [Bool.not_eq_true] at h
  cases c with
  | setAngle a => exact hs
  | setAxis n =>
    by_contra hn
    have := (hA.2.1 n).2.mpr ⟨rfl, hn⟩
    rw [h] at this; cases this
  | setVector v =>
    by_contra hn
    have := (hA.2.2.1 v.c0 v.c1 v.c2 v.c3).2.mpr ⟨rfl, hn⟩
    rw [h] at this; cases this
  | setIdentity => exact unit_axis_ok x_axis_norm
  | invert =>
    obtain ⟨h1, h2⟩ := ctw_ok h
    simp only [aaCall] at *
    rw [h2]; exact (axis_ok _).mp h1
  | setUnique =>
    obtain ⟨h1, h2⟩ := ctw_ok h
    simp only [aaCall] at *
    rw [h2]
    rcases unique_axis s with e | e
    · rw [AxisOk, e]; exact hs
    · exact unit_axis_ok e
  | fix =>
    rcases fix_norm s with e | e
    · exact unit_axis_ok e
    · simp only [aaCall, writeThenCheck]; rw [e]; exact hs
  | copy a => exact hc a rfl
  | assign k r =>
    obtain ⟨h1, h2⟩ := ctw_ok h
    simp only [aaCall] at *
    rw [h2]; exact (axis_ok _).mp h1
  | setFromVectors v1 v2 =>
    simp only [aaCall] at h ⊢
    split_ifs at h ⊢ with h0
    obtain ⟨h1, h2⟩ := ctw_ok h
    rw [h2]
    rw [Bool.and_eq_true] at h1
    exact (axis_ok _).mp h1.2

private lemma quat_fix_norm {q : Quat} (h : NormOk (1 / 10 ^ 4) q) : (quatFix q).norm = 1 := by
  have hp : 0 < q.normSq := by
    by_contra hn
    have h0 : q.norm = 0 := by
      rw [Quat.norm]; exact Real.sqrt_eq_zero_of_nonpos (not_lt.mp hn)
    rw [NormOk, h0] at h
    norm_num at h
  have hn : 0 < q.norm := Real.sqrt_pos.mpr hp
  have hs : q.norm ^ 2 = q.normSq := Real.sq_sqrt hp.le
  have : (quatFix q).normSq = 1 := by
    simp only [quatFix, Quat.normalized, hp, if_true]
    rw [Quat.normSq]
    field_simp
    rw [hs, Quat.normSq]; ring
  rw [Quat.norm, this, Real.sqrt_one]

private lemma unit_norm_ok {q : Quat} {t : ℝ} (ht : 0 ≤ t) (h : q.norm = 1) : NormOk t q := by
  rw [NormOk, h]; simpa using ht

private lemma normOk_mono {q : Quat} (h : NormOk (1 / 10 ^ 6) q) : NormOk (1 / 10 ^ 4) q := by
  rw [NormOk] at *
  have : 0 ≤ max q.norm 1 := le_max_of_le_right zero_le_one
  nlinarith

private lemma quat_step {s : Quat} (hs : NormOk (1 / 10 ^ 4) s) (c : QuatCall) (hc : ¬ QuatUnchecked c)
    (ht : (quatCall P dpE svd .debug s c).thrown = true → ¬ QuatStoresFirst c) :
    NormOk (1 / 10 ^ 4) (quatCall P dpE svd .debug s c).obj := by
  have hA := C110_quaternion P dpE svd .debug s
  by_cases h : (quatCall P dpE svd .debug s c).thrown = true
  · rw [hA.1 c (ht h) h]; exact hs
  rw [Bool.not_eq_true] at h
  cases c with
  | setValues q => by_contra hn; exact hc ⟨q, hn, Or.inl rfl⟩
  | assignUnit q => by_contra hn; exact hc ⟨q, hn, Or.inr (Or.inl rfl)⟩
  | copy q => by_contra hn; exact hc ⟨q, hn, Or.inr (Or.inr rfl)⟩
  | callQuat p =>
    by_contra hn
    have := (hA.2.1 p).2.mpr ⟨rfl, fun h => hn (normOk_mono h)⟩
    rw [h] at this; cases this
  | assign k r =>
    obtain ⟨h1, h2⟩ := ctw_ok h
    simp only [quatCall] at *
    rw [h2]; exact (quat_check4 _).mp h1
  | invert =>
    obtain ⟨h1, h2⟩ := ctw_ok h
    simp only [quatCall] at *
    rw [h2]; exact (quat_check4 _).mp h1
  | setIdentity =>
    refine unit_norm_ok (by norm_num) ?_
    simp [quatCall, RotationQuaternion.setValues, RotationQuaternion.setW, RotationQuaternion.setX, RotationQuaternion.setY,
      RotationQuaternion.setZ, Quat.norm, Quat.normSq]
  | setUnique =>
    obtain ⟨h1, h2⟩ := ctw_ok h
    simp only [quatCall] at *
    rw [h2, NormOk, unique_norm]; exact hs
  | fix => exact unit_norm_ok (by norm_num) (quat_fix_norm hs)
  | setFromVectors v1 v2 =>
    simp only [quatCall] at h ⊢
    split_ifs at h ⊢ with h0
    obtain ⟨h1, h2⟩ := ctw_ok h
    rw [h2]; exact (quat_check4 _).mp h1

/-- **C110 (c).** Debug builds, any history of calls with every exception caught: as long as the only calls that threw were calls that
do not store first, the object keeps its invariant.  (For `AngleAxis`, objects copied in must satisfy it; for `RotationQuaternion`, the
unchecked setters must be given unit quaternions.) -/
theorem C110_history (s : AngAx) (cs : List AaCall) (q : Quat) (ds : List QuatCall) :
    (AxisOk s → (∀ a, AaCall.copy a ∈ cs → AxisOk a) →
      (∀ p ∈ cs.zip (runCaught (aaCall P dpE svd .debug) s cs).2, p.2 = true → ¬ AaStoresFirst p.1) →
      AxisOk (runCaught (aaCall P dpE svd .debug) s cs).1) ∧
    (NormOk (1 / 10 ^ 4) q → (∀ c ∈ ds, ¬ QuatUnchecked c) →
      (∀ p ∈ ds.zip (runCaught (quatCall P dpE svd .debug) q ds).2, p.2 = true → ¬ QuatStoresFirst p.1) →
      NormOk (1 / 10 ^ 4) (runCaught (quatCall P dpE svd .debug) q ds).1) := by
  constructor
  · intro hs hc ht
    induction cs generalizing s with
    | nil => exact hs
    | cons c cs ih =>
      simp only [runCaught, List.zip_cons_cons, List.mem_cons, forall_eq_or_imp] at ht
      exact ih _ (aa_step P dpE svd hs c (fun a e => hc a (by rw [e]; exact List.mem_cons_self)) ht.1)
        (fun a ha => hc a (List.mem_cons_of_mem _ ha)) ht.2
  · intro hs hc ht
    induction ds generalizing q with
    | nil => exact hs
    | cons c cs ih =>
      simp only [runCaught, List.zip_cons_cons, List.mem_cons, forall_eq_or_imp] at ht
      exact ih _ (quat_step P dpE svd hs c (hc c List.mem_cons_self) ht.1)
        (fun a ha => hc a (List.mem_cons_of_mem _ ha)) ht.2

private lemma ctw_build {α : Type} {old new : α} {ok ok' : Bool} (h : (checkThenWrite old new ok).thrown = false) (h' : ok' = true) :
    checkThenWrite old new ok' = checkThenWrite old new ok := by
  rw [(ctw_ok h).1, h']

private lemma aa_release (s : AngAx) (c : AaCall) (h : (aaCall P dpE svd .debug s c).thrown = false) :
    aaCall P dpE svd .release s c = aaCall P dpE svd .debug s c := by
  have hw : ∀ a : AngAx, (writeThenCheck a (normCheck .debug a.axis.norm (1 / 10000))).thrown = false →
      writeThenCheck a (normCheck .release a.axis.norm (1 / 10000)) = writeThenCheck a (normCheck .debug a.axis.norm (1 / 10000)) := by
    intro a ha
    simp only [writeThenCheck, Bool.not_eq_false'] at ha
    simp only [writeThenCheck, ha, release_check]
  cases c with
  | setAxis n => exact hw _ h
  | setVector n => exact hw _ h
  | setIdentity => exact hw _ h
  | fix => exact hw _ h
  | invert => exact ctw_build h rfl
  | setUnique => exact ctw_build h rfl
  | assign k r => exact ctw_build h rfl
  | setFromVectors v1 v2 =>
    simp only [aaCall] at h ⊢
    split_ifs at h ⊢ with h0
    exact ctw_build h rfl
  | _ => rfl

private lemma quat_release (s : Quat) (c : QuatCall) (h : (quatCall P dpE svd .debug s c).thrown = false) :
    quatCall P dpE svd .release s c = quatCall P dpE svd .debug s c := by
  cases c with
  | callQuat p =>
    simp only [quatCall, writeThenCheck, Bool.not_eq_false'] at h
    simp only [quatCall, writeThenCheck, h, release_check]
  | invert => exact ctw_build h rfl
  | setUnique => exact ctw_build h (by simp [release_check])
  | assign k r => exact ctw_build h rfl
  | setFromVectors v1 v2 =>
    simp only [quatCall] at h ⊢
    split_ifs at h ⊢ with h0
    exact ctw_build h rfl
  | _ => rfl

private lemma run_release {α β : Type} {f g : α → β → Effect α} (hfg : ∀ s c, (f s c).thrown = false → g s c = f s c) (s : α) (cs : List β)
    (h : ∀ x ∈ (runCaught f s cs).2, x = false) : runCaught g s cs = runCaught f s cs := by
  induction cs generalizing s with
  | nil => rfl
  | cons c cs ih =>
    simp only [runCaught, List.mem_cons, forall_eq_or_imp] at h ⊢
    rw [hfg s c h.1, ih _ h.2]

/-- **C110 (d).** A history that throws nothing in the debug build ends with the same object in the release build, and throws nothing
there either. -/
theorem C110_release (s : AngAx) (cs : List AaCall) (q : Quat) (ds : List QuatCall) :
    ((∀ x ∈ (runCaught (aaCall P dpE svd .debug) s cs).2, x = false) →
      runCaught (aaCall P dpE svd .release) s cs = runCaught (aaCall P dpE svd .debug) s cs) ∧
    ((∀ x ∈ (runCaught (quatCall P dpE svd .debug) q ds).2, x = false) →
      runCaught (quatCall P dpE svd .release) q ds = runCaught (quatCall P dpE svd .debug) q ds) :=
  ⟨run_release (aa_release P dpE svd) s cs, run_release (quat_release P dpE svd) q ds⟩

/-- **C110 (e), finding.** After a caught exception of `setAxis(n)` the object holds the rejected axis `n`, whatever it held before, and
it is stuck: from then on every `invert()` and every `setUnique()` throws, in any order and number, and leaves the rejected axis in
place; `setAngle` does not notice.  `fix()` repairs it, but to the direction of `n`, not to the old axis. -/
theorem C110_stuck (s : AngAx) (n : V3) (hn : ¬ AxisOk ⟨s.angle, n⟩) (cs : List AaCall)
    (hcs : ∀ c ∈ cs, c = .invert ∨ c = .setUnique ∨ ∃ a, c = .setAngle a) :
    (runCaught (aaCall P dpE svd .debug) s (.setAxis n :: cs)).1.axis = n ∧
    (∀ p ∈ (AaCall.setAxis n :: cs).zip (runCaught (aaCall P dpE svd .debug) s (.setAxis n :: cs)).2,
      p.2 = true ∨ ∃ a, p.1 = .setAngle a) ∧
    (n ≠ 0 → (runCaught (aaCall P dpE svd .debug) s (.setAxis n :: cs ++ [.fix])).1.axis = (1 / n.norm) • n ∧
      (runCaught (aaCall P dpE svd .debug) s (.setAxis n :: cs ++ [.fix])).1.axis.norm = 1) := by
  have bad : ∀ a : AngAx, a.axis = n → ¬ AxisOk a := by
    intro a ha h; apply hn; rw [AxisOk] at *; rw [ha] at h; exact h
  have key : ∀ (cs : List AaCall) (a : AngAx), a.axis = n → (∀ c ∈ cs, c = .invert ∨ c = .setUnique ∨ ∃ a, c = .setAngle a) →
      (runCaught (aaCall P dpE svd .debug) a cs).1.axis = n ∧
      (∀ p ∈ cs.zip (runCaught (aaCall P dpE svd .debug) a cs).2, p.2 = true ∨ ∃ a, p.1 = .setAngle a) ∧
      (runCaught (aaCall P dpE svd .debug) a (cs ++ [.fix])).1 = aaFix (runCaught (aaCall P dpE svd .debug) a cs).1 := by
    intro cs
    induction cs with
    | nil => intro a ha _; exact ⟨ha, by simp [runCaught], rfl⟩
    | cons c cs ih =>
      intro a ha hc
      have hb := bad a ha
      have hf : normCheck .debug a.axis.norm (1 / 10000) = false := by
        rw [← Bool.not_eq_true]; rwa [axis_ok]
      have hi : (aaCall P dpE svd .debug a c).obj.axis = n ∧ ((aaCall P dpE svd .debug a c).thrown = true ∨ ∃ a, c = .setAngle a) := by
        rcases hc c List.mem_cons_self with rfl | rfl | ⟨x, rfl⟩
        · have e : (aaInverted a).axis.norm = a.axis.norm := by simp [aaInverted, AngAx.inverse]
          simp only [aaCall, e, hf, checkThenWrite]
          exact ⟨ha, Or.inl rfl⟩
        · simp only [aaCall, hf, checkThenWrite]
          exact ⟨ha, Or.inl rfl⟩
        · exact ⟨ha, Or.inr ⟨x, rfl⟩⟩
      obtain ⟨i1, i2, i3⟩ := ih _ hi.1 (fun c' h' => hc c' (List.mem_cons_of_mem _ h'))
      refine ⟨i1, ?_, ?_⟩
      · simp only [runCaught, List.zip_cons_cons, List.mem_cons, forall_eq_or_imp]
        exact ⟨hi.2, i2⟩
      · simp only [List.cons_append, runCaught]; exact i3
  obtain ⟨k1, k2, k3⟩ := key cs ⟨s.angle, n⟩ rfl hcs
  refine ⟨k1, ?_, fun h0 => ?_⟩
  · simp only [runCaught, List.zip_cons_cons, List.mem_cons, forall_eq_or_imp]
    exact ⟨Or.inl (((C110_angle_axis P dpE svd .debug s).2.1 n).2.mpr ⟨rfl, hn⟩), k2⟩
  · have e : (runCaught (aaCall P dpE svd .debug) s (.setAxis n :: cs ++ [.fix])).1 =
        aaFix (runCaught (aaCall P dpE svd .debug) ⟨s.angle, n⟩ cs).1 := k3
    rw [e]
    simp only [aaFix, k1]
    exact ⟨V3.normalized_of_ne h0, V3.norm_eq_one_iff.mpr (V3.normSq_normalized h0)⟩

/-- **C110 (f), finding.** The same quaternion may pass the checking constructor and be refused by `q(p)`: the tolerances differ by a
factor of 100.  What `q(p)` accepts, the constructor accepts. -/
theorem C110_tolerance (s : Quat) :
    (∀ p, (quatCall P dpE svd .debug s (.callQuat p)).thrown = false → quatCtorDbg p = .ok p) ∧
    (∃ p, quatCtorDbg p = .ok p ∧ (quatCall P dpE svd .debug s (.callQuat p)).thrown = true ∧
      (quatCall P dpE svd .debug s (.callQuat p)).obj = p) := by
  have hA := C110_quaternion P dpE svd .debug s
  constructor
  · intro p hp
    rw [(C26_quaternion_ctor p).1]
    refine normOk_mono ?_
    by_contra hn
    rw [(hA.2.1 p).2.mpr ⟨rfl, hn⟩] at hp
    cases hp
  · have hnorm : (⟨100001 / 100000, 0, 0, 0⟩ : Quat).norm = 100001 / 100000 := by
      simp only [Quat.norm, Quat.normSq]
      rw [show (100001 / 100000 * (100001 / 100000) + 0 * 0 + 0 * 0 + 0 * 0 : ℝ) = (100001 / 100000) ^ 2 by norm_num]
      exact Real.sqrt_sq (by norm_num)
    refine ⟨⟨100001 / 100000, 0, 0, 0⟩, ?_, ?_, rfl⟩
    · rw [(C26_quaternion_ctor _).1, hnorm]
      norm_num [max_def, abs_of_pos]
    · rw [(hA.2.1 _).2]
      refine ⟨rfl, ?_⟩
      rw [NormOk, hnorm]
      norm_num [max_def, abs_of_pos]

/-- Non-vacuity of C110 (c) and (e): a history in which a caught exception of `setFromVectors` does no harm, and one in which
`setAxis(2, 0, 0)` leaves the rejected axis behind. -/
example : AxisOk (runCaught (aaCall P dpE svd .debug) ⟨1, ⟨1, 0, 0⟩⟩ [.setFromVectors 0 0, .invert]).1 ∧
    (runCaught (aaCall P dpE svd .debug) ⟨1, ⟨1, 0, 0⟩⟩ [.setFromVectors 0 0, .invert]).2 = [true, false] ∧
    (runCaught (aaCall P dpE svd .debug) ⟨1, ⟨1, 0, 0⟩⟩ [.setAxis ⟨2, 0, 0⟩, .invert, .setUnique]).1.axis = ⟨2, 0, 0⟩ := by
  have h0 : ¬ ((0 : V3).norm * (0 : V3).norm ≠ 0) := by simp
  have hx : normCheck .debug (⟨1, 0, 0⟩ : V3).norm (1 / 10000) = true := (axis_check _ 0).mpr (unit_axis_ok x_axis_norm)
  have e : (aaInverted ⟨1, ⟨1, 0, 0⟩⟩).axis.norm = (⟨1, 0, 0⟩ : V3).norm := by simp [aaInverted, AngAx.inverse]
  have hr : runCaught (aaCall P dpE svd .debug) ⟨1, ⟨1, 0, 0⟩⟩ [.setFromVectors 0 0, .invert] =
      (aaInverted ⟨1, ⟨1, 0, 0⟩⟩, [true, false]) := by
    rw [one_div] at hx
    simp [runCaught, aaCall, checkThenWrite, e, hx]
  have h2 : (⟨2, 0, 0⟩ : V3).norm = 2 := by
    have : (⟨2, 0, 0⟩ : V3).norm = Real.sqrt (2 ^ 2) := by simp [V3.norm, V3.normSq, V3.dot]
    rw [this, Real.sqrt_sq (by norm_num)]
  refine ⟨?_, by rw [hr], ?_⟩
  · rw [hr]; exact unit_axis_ok (by rw [e]; exact x_axis_norm)
  · refine (C110_stuck P dpE svd ⟨1, ⟨1, 0, 0⟩⟩ ⟨2, 0, 0⟩ ?_ [.invert, .setUnique] (by simp)).1
    rw [AxisOk]; simp only [h2]; norm_num [max_def]

end Kindr
