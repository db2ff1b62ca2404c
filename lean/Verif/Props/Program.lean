import Verif.Spec.Program
import Verif.Lemmas.MatrixExp
import Verif.Props.ExpLog
import Verif.Props.Group

/-!
# C77: every program over rotation variables computes what exact matrices would
-/

set_option autoImplicit false

noncomputable section
namespace Kindr
open Spec

/-- The simulation relation: every variable holds an admissible value that stands for the ideal matrix. -/
private def Sim (cls : ℕ → Kind) (σ : (i : ℕ) → Rep (cls i)) (S : Store) : Prop :=
  ∀ i, Valid (cls i) (σ i) ∧ toMat (den (cls i) (σ i)) = S i

lemma toMat_trace (m : M3) : (toMat m).trace = m.trace := by
  simp [toMat, Matrix.trace, Fin.sum_univ_three, M3.trace]

lemma toMat_inv {m : M3} (h : IsSO3 m) : (toMat m)⁻¹ = toMat m.transpose := by
  apply Matrix.inv_eq_right_inv
  rw [← toMat_mul, h.1, toMat_one]

lemma toMat_mulVec' (m : M3) (v : V3) : (toMat m).mulVec (toVec v) = toVec (m.mulVec v) := by
  ext i; fin_cases i <;> simp [toMat, toVec, Matrix.mulVec, dotProduct, Fin.sum_univ_three]

lemma tame_iff (P : Prec) (m : M3) : Tame P (toMat m) ↔ Clear P m := by
  rw [Tame, Clear, toMat_trace, ← toMat_one]
  exact or_congr ⟨fun h => toMat_injective h, fun h => by rw [h]⟩ Iff.rfl

private lemma sim_update {cls : ℕ → Kind} {σ : (i : ℕ) → Rep (cls i)} {S : Store} (h : Sim cls σ S) (d : ℕ)
    {x : Rep (cls d)} {A : Matrix (Fin 3) (Fin 3) ℝ} (hx : Valid (cls d) x ∧ toMat (den (cls d) x) = A) :
    Sim cls (Function.update σ d x) (Function.update S d A) := by
  intro i
  by_cases hi : i = d
  · subst hi; rw [Function.update_self, Function.update_self]; exact hx
  · rw [Function.update_of_ne hi, Function.update_of_ne hi]; exact h i

lemma exp_den (w : V3) : NormedSpace.exp (crossMatrix w) = toMat (den .rv (⟨w⟩ : RotVec)) := by
  rw [den_eq, toMat_rv]

private lemma unique_spec (P : Prec) {k : Kind} {r : Rep k} (hv : Valid k r) (h1 : k ≠ .xyz) (h2 : k ≠ .zyx)
    (hc : RvClear P k (den k r)) : Valid k (getUnique P k r) ∧ den k (getUnique P k r) = den k r := by
  cases k
  · obtain ⟨a, b, -⟩ := C14_quaternion_unique P r r hv hv
    exact ⟨a, (sameRot_iff _ _).mp b⟩
  · exact ⟨hv, rfl⟩
  · obtain ⟨a, b, -⟩ := C15_angle_axis_unique P r r hv hv
    exact ⟨a, (sameRot_iff _ _).mp b⟩
  · have hc' := hc rfl
    rw [den_eq] at hc'
    have h0 := (clear_rv (P := P) (r := r) hc').imp id (fun h => h.2)
    exact ⟨trivial, (sameRot_iff _ _).mp (C16_rotation_vector_unique P r r h0 h0).1⟩
  · exact absurd rfl h1
  · exact absurd rfl h2

/-- Conversion into the destination's class. -/
lemma to_dest {P : Prec} {d s : Kind} {r : Rep s} {M : M3} (hv : Valid s r) (hd : den s r = M)
    (hc : d = .rv ∨ s = .rv → Clear P M) : Valid d (conv P d s r) ∧ toMat (den d (conv P d s r)) = toMat M := by
  have := conv_any (P := P) (d := d) hv (fun h => by rw [hd]; exact hc (Or.inr h)) (fun h => by rw [hd]; exact hc (Or.inl h))
  exact ⟨this.1, by rw [this.2, hd]⟩

private lemma step_sim (P : Prec) (cls : ℕ → Kind) {σ : (i : ℕ) → Rep (cls i)} {S : Store} (h : Sim cls σ S) (c : Cmd)
    (hc : CmdOk P cls S c) : Sim cls (step P cls σ c).1 (idealStep S c).1 ∧ (step P cls σ c).2 = (idealStep S c).2 := by
  have cl : ∀ i, Tame P (S i) ↔ Clear P (den (cls i) (σ i)) := fun i => by rw [← (h i).2, tame_iff]
  have cl2 : ∀ i j, Tame P (S i * S j) ↔ Clear P (den (cls i) (σ i) * den (cls j) (σ j)) := fun i j => by
    rw [← (h i).2, ← (h j).2, ← toMat_mul, tame_iff]
  have rel : ∀ i j, S i * (S j)⁻¹ = toMat (den (cls i) (σ i) * (den (cls j) (σ j)).transpose) := fun i j => by
    rw [← (h i).2, ← (h j).2, toMat_inv (den_isSO3 (h j).1), ← toMat_mul]
  have dis : ∀ a b, (cls a = .rv → Tame P (S a) ∧ Tame P (S a * (S b)⁻¹)) ∧ (cls b = .rv → Tame P (S b)) →
      disparityAngle P (cls a) (cls b) (σ a) (σ b) = angleOf (S a * (S b)⁻¹) := by
    intro a b hab
    rw [disparity_eq (h a).1 (h b).1 ⟨fun e => (cl a).mp (hab.1 e).1, fun e => (cl b).mp (hab.2 e), fun e => by
      have := (hab.1 e).2
      rwa [rel, tame_iff] at this⟩, rel, angleOf, toMat_trace]
    rfl
  have xb : ∀ a, (cls a = .rv → Tame P (S a)) → ExactBranch P .mat (cls a) (σ a) := fun a ha =>
    exact_to_nonrv (by decide) (fun e => (cl a).mp (ha e))
  cases c with
  | assign d s =>
    refine ⟨sim_update h d ?_, rfl⟩
    have := to_dest (P := P) (d := cls d) (h s).1 rfl (fun e => (cl s).mp (hc e))
    exact ⟨this.1, this.2.trans (h s).2⟩
  | mul d a b =>
    obtain ⟨c1, c2, c3⟩ := hc
    obtain ⟨v, e⟩ := mult_spec (P := P) (h a).1 (h b).1 (fun e => (cl a).mp (c1 e)) (fun e => (cl b).mp (c2 e))
      (fun e => (cl2 a b).mp (c3 (Or.inr e)))
    refine ⟨sim_update h d ?_, rfl⟩
    have := to_dest (P := P) (d := cls d) v e (fun x => (cl2 a b).mp (c3 x))
    exact ⟨this.1, this.2.trans (by rw [toMat_mul, (h a).2, (h b).2])⟩
  | inv d a =>
    obtain ⟨v, e⟩ := inverted_spec (h a).1
    refine ⟨sim_update h d ?_, rfl⟩
    have := to_dest (P := P) (d := cls d) v e (fun x => clear_transpose ((cl a).mp (hc x)))
    exact ⟨this.1, this.2.trans (by rw [← toMat_inv (den_isSO3 (h a).1), (h a).2])⟩
  | setIdentity d =>
    refine ⟨sim_update h d ?_, rfl⟩
    obtain ⟨v, e⟩ := identity_spec (cls d)
    exact ⟨v, by rw [e, toMat_one]⟩
  | exp d w =>
    refine ⟨sim_update h d ?_, rfl⟩
    have hc' : Tame P (NormedSpace.exp (crossMatrix w)) := hc
    rw [exp_den, tame_iff] at hc'
    obtain ⟨v, e⟩ := exp_spec (P := P) (k := cls d) hc'
    exact ⟨v, by rw [e, exp_den]⟩
  | boxPlus d a w =>
    obtain ⟨c1, c2, c3⟩ := hc
    rw [exp_den] at c1 c3
    rw [tame_iff] at c1
    have e0 : toMat (den .rv (⟨w⟩ : RotVec)) * S a = toMat (den .rv (⟨w⟩ : RotVec) * den (cls a) (σ a)) := by
      rw [toMat_mul, (h a).2]
    rw [e0, tame_iff] at c3
    obtain ⟨v1, d1⟩ := exp_spec (P := P) (k := cls a) c1
    obtain ⟨v, e⟩ := mult_spec (P := P) v1 (h a).1 (fun _ => by rw [d1]; exact c1) (fun e => (cl a).mp (c2 e))
      (fun e => by rw [d1]; exact c3 (Or.inr e))
    rw [d1] at e
    refine ⟨sim_update h d ?_, rfl⟩
    have := to_dest (P := P) (d := cls d) (r := Kindr.boxPlus P (cls a) (σ a) w) v e c3
    exact ⟨this.1, this.2.trans (by rw [exp_den, e0])⟩
  | setUnique d =>
    obtain ⟨c1, c2, c3⟩ := hc
    obtain ⟨v, e⟩ := unique_spec P (h d).1 c1 c2 (fun e => (cl d).mp (c3 e))
    refine ⟨?_, rfl⟩
    have := sim_update h d (x := getUnique P (cls d) (σ d)) (A := S d) ⟨v, by rw [e, (h d).2]⟩
    rwa [Function.update_eq_self] at this
  | rotate a v =>
    refine ⟨h, ?_⟩
    simp only [step, idealStep]
    rw [rotate_spec (h a).1 (xb a hc), ← (h a).2, toMat_mulVec']
  | inverseRotate a v =>
    refine ⟨h, ?_⟩
    simp only [step, idealStep]
    obtain ⟨vi, di⟩ := inverted_spec (h a).1
    rw [Kindr.inverseRotate, rotate_spec vi (exact_mat_inverted (xb a hc)), di, ← (h a).2,
      toMat_inv (den_isSO3 (h a).1), toMat_mulVec']
  | disparity a b =>
    refine ⟨h, ?_⟩
    simp only [step, idealStep]
    rw [dis a b hc]
  | isNear a b tol =>
    refine ⟨h, ?_⟩
    simp only [step, idealStep, Kindr.isNear, decide_eq_true_eq]
    rw [dis a b hc]

/-- **C77.** Let the variables hold admissible values of their classes, standing for the rotation matrices `S`.  Then every
program whose ideal execution meets the side conditions leaves admissible values in all variables, these stand for exactly the
matrices the ideal machine computes, and everything printed on the way is what the ideal machine prints. -/
theorem C77_program_refinement (P : Prec) (cls : ℕ → Kind) (σ : (i : ℕ) → Rep (cls i)) (S : Store) (p : List Cmd)
    (hv : ∀ i, Valid (cls i) (σ i)) (hS : ∀ i v, toVec (act (cls i) (σ i) v) = (S i).mulVec (toVec v))
    (hp : ProgramOk P cls S p) :
    (run P cls σ p).2 = (runIdeal S p).2 ∧
    (∀ i, Valid (cls i) ((run P cls σ p).1 i)) ∧
    ∀ i v, toVec (act (cls i) ((run P cls σ p).1 i) v) = ((runIdeal S p).1 i).mulVec (toVec v) := by
  have h0 : Sim cls σ S := by
    intro i
    refine ⟨hv i, ?_⟩
    have key : ∀ v : V3, (toMat (den (cls i) (σ i))).mulVec (toVec v) = (S i).mulVec (toVec v) := fun v => by
      rw [toMat_mulVec', ← act_eq]; exact hS i v
    apply Matrix.ext_of_mulVec_single
    intro j
    have hj : ∀ (x : Fin 3 → ℝ), ∃ v, toVec v = x := fun x => ⟨⟨x 0, x 1, x 2⟩, by ext l; fin_cases l <;> rfl⟩
    obtain ⟨v, hv⟩ := hj (Pi.single j 1)
    rw [← hv]; exact key v
  have main : ∀ (p : List Cmd) (σ : (i : ℕ) → Rep (cls i)) (S : Store), Sim cls σ S → ProgramOk P cls S p →
      (run P cls σ p).2 = (runIdeal S p).2 ∧ Sim cls (run P cls σ p).1 (runIdeal S p).1 := by
    intro p
    induction p with
    | nil => intro σ S h _; exact ⟨rfl, h⟩
    | cons c p ih =>
      intro σ S h hp
      obtain ⟨s1, s2⟩ := step_sim P cls h c hp.1
      obtain ⟨i1, i2⟩ := ih _ _ s1 hp.2
      exact ⟨by rw [run, runIdeal, s2, i1], i2⟩
  obtain ⟨m1, m2⟩ := main p σ S h0 hp
  exact ⟨m1, fun i => (m2 i).1, fun i v => by rw [← (m2 i).2, act_eq, toMat_mulVec']⟩

/-- Commands without a small-angle branch and without `setUnique()` of Euler angles. -/
def Spec.PlainCmd (cls : ℕ → Kind) : Cmd → Prop
  | .exp _ _ => False
  | .boxPlus _ _ _ => False
  | .setUnique d => cls d ≠ .xyz ∧ cls d ≠ .zyx
  | _ => True

/-- **C77, unconditional.** If no variable is a `RotationVector` and the program uses only assignment (conversion), products,
inverses, `setIdentity`, `setUnique` (not on Euler angles) and the four observations, there is no side condition. -/
theorem C77_program_unconditional (P : Prec) (cls : ℕ → Kind) (hcls : ∀ i, cls i ≠ .rv) (σ : (i : ℕ) → Rep (cls i)) (S : Store)
    (p : List Cmd) (hp : ∀ c ∈ p, PlainCmd cls c) (hv : ∀ i, Valid (cls i) (σ i))
    (hS : ∀ i v, toVec (act (cls i) (σ i) v) = (S i).mulVec (toVec v)) :
    (run P cls σ p).2 = (runIdeal S p).2 ∧
    (∀ i, Valid (cls i) ((run P cls σ p).1 i)) ∧
    ∀ i v, toVec (act (cls i) ((run P cls σ p).1 i) v) = ((runIdeal S p).1 i).mulVec (toVec v) := by
  refine C77_program_refinement P cls σ S p hv hS ?_
  have n : ∀ {i : ℕ} {q : Prop}, cls i = .rv → q := fun {i} _ h => absurd h (hcls i)
  have n2 : ∀ {i j : ℕ} {q : Prop}, cls i = .rv ∨ cls j = .rv → q := fun h => h.elim n n
  clear hS
  induction p generalizing S with
  | nil => trivial
  | cons c p ih =>
    refine ⟨?_, ih _ (fun c hc => hp c (by simp [hc]))⟩
    have h := hp c (by simp)
    cases c with
    | assign d s => exact n2
    | mul d a b => exact ⟨n, n, n2⟩
    | inv d a => exact n2
    | setIdentity d => trivial
    | exp d w => exact h.elim
    | boxPlus d a w => exact h.elim
    | setUnique d => exact ⟨h.1, h.2, n⟩
    | rotate a v => exact n
    | inverseRotate a v => exact n
    | disparity a b => exact ⟨n, n⟩
    | isNear a b tol => exact ⟨n, n⟩

/-- non-vacuity: a program over variables of four classes that starts from the identity, moves by an exponential map and a
`boxPlus` in a rotation vector, converts, multiplies, inverts, makes unique and prints. -/
example (P : Prec) :
    let cls : ℕ → Kind := fun i => if i = 0 then .rv else if i = 1 then .quat else if i = 2 then .zyx else .mat
    let w : V3 := ⟨0, 3 / 5, 4 / 5⟩
    (∀ i, Valid (cls i) (identity (cls i))) ∧
    (∀ i v, toVec (act (cls i) (identity (cls i)) v) = ((1 : Matrix (Fin 3) (Fin 3) ℝ)).mulVec (toVec v)) ∧
    ProgramOk P cls (fun _ => 1) [.boxPlus 0 0 w, .exp 2 w, .assign 1 0, .mul 3 2 1, .inv 2 3, .setUnique 1,
      .rotate 0 ⟨1, 0, 0⟩, .disparity 1 2, .isNear 1 2 (1 / 10)] := by
  intro cls w
  have hw : Clear P (den .rv (⟨w⟩ : RotVec)) := by
    have h : (⟨0, 3 / 5, 4 / 5⟩ : V3).norm = 1 := V3.norm_eq_one_iff.mpr (by norm_num [V3.normSq, V3.dot])
    exact clear_of_norm' (by rw [h]; norm_num) (by rw [h]; linarith [Real.pi_gt_three])
  have ht : Tame P (NormedSpace.exp (crossMatrix w)) := by rw [exp_den, tame_iff]; exact hw
  refine ⟨fun i => (identity_spec (cls i)).1, fun i v => ?_, ?_⟩
  · rw [act_eq, (identity_spec (cls i)).2, M3.one_mulVec, Matrix.one_mulVec]
  · simp only [ProgramOk, CmdOk, idealStep, Function.update_apply]
    simp [cls]
    exact ⟨⟨ht, Or.inl rfl, ht⟩, ht⟩

end Kindr
