import Verif.Spec.Machine
import Verif.Props.Program
import Verif.Props.PoseEq

/-!
# C79: every program with branches and loops over rotations, poses and vectors computes what matrices would
-/

set_option autoImplicit false

open Classical

noncomputable section
namespace Kindr
open Spec

/-! ## 4x4 matrices of rigid motions -/

private lemma block_rigid (A : Matrix (Fin 3) (Fin 3) ℝ) (p : Fin 3 → ℝ) : block (rigid A p) = A := by
  ext i j; fin_cases i <;> fin_cases j <;> rfl

private lemma column_rigid (A : Matrix (Fin 3) (Fin 3) ℝ) (p : Fin 3 → ℝ) : column (rigid A p) = p := by
  ext i; fin_cases i <;> rfl

private lemma rigid_mul (A B : Matrix (Fin 3) (Fin 3) ℝ) (p q : Fin 3 → ℝ) :
    rigid A p * rigid B q = rigid (A * B) (p + A.mulVec q) := by
  ext i j
  fin_cases i <;> fin_cases j <;>
    simp [rigid, Matrix.mul_apply, Matrix.mulVec, dotProduct, Fin.sum_univ_four, Fin.sum_univ_three] <;> ring

private lemma rigid_one : rigid 1 0 = 1 := by
  ext i j; fin_cases i <;> fin_cases j <;> simp [rigid]

private lemma rigid_inv {A B : Matrix (Fin 3) (Fin 3) ℝ} (h : A * B = 1) (p : Fin 3 → ℝ) :
    (rigid A p)⁻¹ = rigid B (-(B.mulVec p)) := by
  apply Matrix.inv_eq_right_inv
  rw [rigid_mul, h, Matrix.mulVec_neg, Matrix.mulVec_mulVec, h, Matrix.one_mulVec, add_neg_cancel, rigid_one]

private lemma movePoint_rigid (A : Matrix (Fin 3) (Fin 3) ℝ) (p x : Fin 3 → ℝ) :
    movePoint (rigid A p) x = A.mulVec x + p := by
  ext i
  fin_cases i <;> simp [movePoint, rigid, Matrix.mulVec, dotProduct, Fin.sum_univ_four, Fin.sum_univ_three]

private lemma rigid_homogeneous (A : Matrix (Fin 3) (Fin 3) ℝ) (t p : V3) :
    (rigid A (toVec t)).mulVec (homogeneous p) =
      ![(A.mulVec (toVec p) + toVec t) 0, (A.mulVec (toVec p) + toVec t) 1, (A.mulVec (toVec p) + toVec t) 2, 1] := by
  ext i
  fin_cases i <;>
    simp [rigid, homogeneous, toVec, Matrix.mulVec, dotProduct, Fin.sum_univ_four, Fin.sum_univ_three]

private lemma toVec_add (a b : V3) : toVec (a + b) = toVec a + toVec b := by
  ext i; fin_cases i <;> simp [toVec]
private lemma toVec_sub (a b : V3) : toVec (a - b) = toVec a - toVec b := by
  ext i; fin_cases i <;> simp [toVec]
private lemma toVec_smul (c : ℝ) (a : V3) : toVec (c • a) = c • toVec a := by
  ext i; fin_cases i <;> simp [toVec]
private lemma toVec_cross (a b : V3) : toVec (a.cross b) = crossProduct (toVec a) (toVec b) := by
  rw [cross_apply]; ext i; fin_cases i <;> simp [toVec, V3.cross]
private lemma toVec_injective {a b : V3} (h : toVec a = toVec b) : a = b := by
  have h0 := congrFun h 0; have h1 := congrFun h 1; have h2 := congrFun h 2
  exact V3.ext h0 h1 h2
private lemma toVec_surj (x : Fin 3 → ℝ) : ∃ v, toVec v = x := ⟨⟨x 0, x 1, x 2⟩, by ext l; fin_cases l <;> rfl⟩
private lemma crossMat_toVec (w : V3) : crossMat (toVec w) = crossMatrix w := rfl

private lemma homogeneous_toVec {p : V3} {y : Fin 3 → ℝ} (h : toVec p = y) : homogeneous p = ![y 0, y 1, y 2, 1] := by
  subst h; rfl

private lemma rigid_injective {A B : Matrix (Fin 3) (Fin 3) ℝ} {p q : Fin 3 → ℝ} (h : rigid A p = rigid B q) :
    A = B ∧ p = q :=
  ⟨by rw [← block_rigid A p, h, block_rigid], by rw [← column_rigid A p, h, column_rigid]⟩

/-! ## The simulation -/

variable {D : Decl}

/-- Every variable holds an admissible value that stands for the ideal matrix. -/
private structure MSim (σ : Vars D) (S : Ideal) : Prop where
  R : ∀ i, Valid (D.rot i) (σ.R i) ∧ toMat (den (D.rot i) (σ.R i)) = S.R i
  T : ∀ i, Valid (D.pose i) (σ.T i).rotation ∧ rigid (toMat (den (D.pose i) (σ.T i).rotation)) (toVec (σ.T i).position) = S.T i
  v : ∀ i, toVec (σ.v i) = S.v i

private lemma mat_of_action {m : M3} {A : Matrix (Fin 3) (Fin 3) ℝ}
    (h : ∀ v, toVec (m.mulVec v) = A.mulVec (toVec v)) : toMat m = A := by
  apply Matrix.ext_of_mulVec_single
  intro j
  obtain ⟨v, hv⟩ := toVec_surj (Pi.single j 1)
  rw [← hv, toMat_mulVec', h]

private lemma mat4_ext {A B : Matrix (Fin 4) (Fin 4) ℝ} (h : ∀ p : V3, A.mulVec (homogeneous p) = B.mulVec (homogeneous p)) :
    A = B := by
  have h0 := h ⟨0, 0, 0⟩
  have h1 := h ⟨1, 0, 0⟩
  have h2 := h ⟨0, 1, 0⟩
  have h3 := h ⟨0, 0, 1⟩
  have e0 := fun i => congrFun h0 i
  have e1 := fun i => congrFun h1 i
  have e2 := fun i => congrFun h2 i
  have e3 := fun i => congrFun h3 i
  simp [homogeneous, Matrix.mulVec, dotProduct, Fin.sum_univ_four] at e0 e1 e2 e3
  ext i j
  have a0 := e0 i; have a1 := e1 i; have a2 := e2 i; have a3 := e3 i
  fin_cases j
  · change A i 0 = B i 0; linarith
  · change A i 1 = B i 1; linarith
  · change A i 2 = B i 2; linarith
  · change A i 3 = B i 3; linarith

private lemma represents_iff (σ : Vars D) (S : Ideal) : Represents σ S ↔ MSim σ S := by
  constructor
  · rintro ⟨hR, hT, hv⟩
    refine ⟨fun i => ⟨(hR i).1, mat_of_action fun v => ?_⟩, fun i => ⟨(hT i).1, mat4_ext fun p => ?_⟩, hv⟩
    · rw [← act_eq]; exact (hR i).2 v
    · rw [← (hT i).2 p, rigid_homogeneous, toMat_mulVec', ← toVec_add]
      exact (homogeneous_toVec (by rw [move, act_eq])).symm
  · rintro ⟨hR, hT, hv⟩
    refine ⟨fun i => ⟨(hR i).1, fun u => ?_⟩, fun i => ⟨(hT i).1, fun p => ?_⟩, hv⟩
    · rw [← (hR i).2, act_eq, toMat_mulVec']
    · rw [← (hT i).2, rigid_homogeneous, toMat_mulVec', ← toVec_add]
      exact homogeneous_toVec (by rw [move, act_eq])

private lemma MSim.setR {σ : Vars D} {S : Ideal} (h : MSim σ S) (d : ℕ) {x : Rep (D.rot d)} {A : Matrix (Fin 3) (Fin 3) ℝ}
    (hx : Valid (D.rot d) x ∧ toMat (den (D.rot d) x) = A) : MSim (σ.setR d x) (S.setR d A) := by
  refine ⟨fun i => ?_, h.T, h.v⟩
  simp only [Vars.setR, Ideal.setR]
  by_cases hi : i = d
  · subst hi; rw [Function.update_self, Function.update_self]; exact hx
  · rw [Function.update_of_ne hi, Function.update_of_ne hi]; exact h.R i

private lemma MSim.setT {σ : Vars D} {S : Ideal} (h : MSim σ S) (d : ℕ) {x : Pose (D.pose d)} {A : Matrix (Fin 3) (Fin 3) ℝ}
    {p : Fin 3 → ℝ} {M : Matrix (Fin 4) (Fin 4) ℝ}
    (hx : Valid (D.pose d) x.rotation ∧ toMat (den (D.pose d) x.rotation) = A) (hp : toVec x.position = p) (hM : rigid A p = M) :
    MSim (σ.setT d x) (S.setT d M) := by
  refine ⟨h.R, fun i => ?_, h.v⟩
  simp only [Vars.setT, Ideal.setT]
  by_cases hi : i = d
  · subst hi; rw [Function.update_self, Function.update_self]; exact ⟨hx.1, by rw [hx.2, hp, hM]⟩
  · rw [Function.update_of_ne hi, Function.update_of_ne hi]; exact h.T i

private lemma MSim.setV {σ : Vars D} {S : Ideal} (h : MSim σ S) (d : ℕ) {x : V3} {y : Fin 3 → ℝ} (hx : toVec x = y) :
    MSim (σ.setV d x) (S.setV d y) := by
  refine ⟨h.R, h.T, fun i => ?_⟩
  simp only [Vars.setV, Ideal.setV]
  by_cases hi : i = d
  · subst hi; rw [Function.update_self, Function.update_self]; exact hx
  · rw [Function.update_of_ne hi, Function.update_of_ne hi]; exact h.v i

private lemma MSim.block {σ : Vars D} {S : Ideal} (h : MSim σ S) (i : ℕ) :
    block (S.T i) = toMat (den (D.pose i) (σ.T i).rotation) := by rw [← (h.T i).2, block_rigid]
private lemma MSim.column {σ : Vars D} {S : Ideal} (h : MSim σ S) (i : ℕ) :
    column (S.T i) = toVec (σ.T i).position := by rw [← (h.T i).2, column_rigid]

private lemma exec_sim (P : Prec) {σ : Vars D} {S : Ideal} (h : MSim σ S) (o : Op) (ho : OpOk P D S o) :
    MSim (libExec P σ o).1 (idealExec S o).1 ∧ (libExec P σ o).2 = (idealExec S o).2 := by
  have cl : ∀ i, Tame P (S.R i) ↔ Clear P (den (D.rot i) (σ.R i)) := fun i => by rw [← (h.R i).2, tame_iff]
  have clT : ∀ i, Tame P (block (S.T i)) ↔ Clear P (den (D.pose i) (σ.T i).rotation) := fun i => by rw [h.block, tame_iff]
  have cl2 : ∀ i j, Tame P (S.R i * S.R j) ↔ Clear P (den (D.rot i) (σ.R i) * den (D.rot j) (σ.R j)) := fun i j => by
    rw [← (h.R i).2, ← (h.R j).2, ← toMat_mul, tame_iff]
  have clT2 : ∀ i j, Tame P (block (S.T i) * block (S.T j)) ↔
      Clear P (den (D.pose i) (σ.T i).rotation * den (D.pose j) (σ.T j).rotation) := fun i j => by
    rw [h.block, h.block, ← toMat_mul, tame_iff]
  have rot : ∀ a v, (D.rot a = .rv → Tame P (S.R a)) →
      toVec (rotate P (D.rot a) (σ.R a) v) = (S.R a).mulVec (toVec v) := fun a v ha => by
    rw [rotate_spec (h.R a).1 (exact_to_nonrv (by decide) fun e => (cl a).mp (ha e)), ← (h.R a).2, toMat_mulVec']
  have irot : ∀ a v, (D.rot a = .rv → Tame P (S.R a)) →
      toVec (inverseRotate P (D.rot a) (σ.R a) v) = (S.R a)⁻¹.mulVec (toVec v) := fun a v ha => by
    obtain ⟨vi, di⟩ := inverted_spec (h.R a).1
    rw [inverseRotate, rotate_spec vi (exact_mat_inverted (exact_to_nonrv (by decide) fun e => (cl a).mp (ha e))), di,
      ← (h.R a).2, toMat_inv (den_isSO3 (h.R a).1), toMat_mulVec']
  have rotT : ∀ a v, (D.pose a = .rv → Tame P (block (S.T a))) →
      toVec (rotate P (D.pose a) (σ.T a).rotation v) = (block (S.T a)).mulVec (toVec v) := fun a v ha => by
    rw [rotate_spec (h.T a).1 (exact_to_nonrv (by decide) fun e => (clT a).mp (ha e)), h.block, toMat_mulVec']
  have irotT : ∀ a v, (D.pose a = .rv → Tame P (block (S.T a))) →
      toVec (inverseRotate P (D.pose a) (σ.T a).rotation v) =
        (toMat (den (D.pose a) (σ.T a).rotation).transpose).mulVec (toVec v) := fun a v ha => by
    obtain ⟨vi, di⟩ := inverted_spec (h.T a).1
    rw [inverseRotate, rotate_spec vi (exact_mat_inverted (exact_to_nonrv (by decide) fun e => (clT a).mp (ha e))), di,
      toMat_mulVec']
  have rel : ∀ i j, S.R i * (S.R j)⁻¹ = toMat (den (D.rot i) (σ.R i) * (den (D.rot j) (σ.R j)).transpose) := fun i j => by
    rw [← (h.R i).2, ← (h.R j).2, toMat_inv (den_isSO3 (h.R j).1), ← toMat_mul]
  cases o with
  | rAssign d s =>
    refine ⟨h.setR d ?_, rfl⟩
    have := to_dest (P := P) (d := D.rot d) (h.R s).1 rfl (fun e => (cl s).mp (ho e))
    exact ⟨this.1, this.2.trans (h.R s).2⟩
  | rMul d a b =>
    obtain ⟨c1, c2, c3⟩ := ho
    obtain ⟨v, e⟩ := mult_spec (P := P) (h.R a).1 (h.R b).1 (fun e => (cl a).mp (c1 e)) (fun e => (cl b).mp (c2 e))
      (fun e => (cl2 a b).mp (c3 (Or.inr e)))
    refine ⟨h.setR d ?_, rfl⟩
    have := to_dest (P := P) (d := D.rot d) v e (fun x => (cl2 a b).mp (c3 x))
    exact ⟨this.1, this.2.trans (by rw [toMat_mul, (h.R a).2, (h.R b).2])⟩
  | rInv d a =>
    obtain ⟨v, e⟩ := inverted_spec (h.R a).1
    refine ⟨h.setR d ?_, rfl⟩
    have := to_dest (P := P) (d := D.rot d) v e (fun x => clear_transpose ((cl a).mp (ho x)))
    exact ⟨this.1, this.2.trans (by rw [← toMat_inv (den_isSO3 (h.R a).1), (h.R a).2])⟩
  | rIdentity d =>
    refine ⟨h.setR d ?_, rfl⟩
    obtain ⟨v, e⟩ := identity_spec (D.rot d)
    exact ⟨v, by rw [e, toMat_one]⟩
  | rExp d s =>
    refine ⟨h.setR d ?_, rfl⟩
    have hc' : Tame P (NormedSpace.exp (crossMat (S.v s))) := ho
    rw [← h.v s, crossMat_toVec, exp_den, tame_iff] at hc'
    obtain ⟨v, e⟩ := exp_spec (P := P) (k := D.rot d) hc'
    exact ⟨v, by rw [e, ← h.v s, crossMat_toVec, exp_den]⟩
  | rBoxPlus d a s =>
    obtain ⟨c1, c2, c3⟩ := ho
    rw [← h.v s, crossMat_toVec, exp_den] at c1 c3
    rw [tame_iff] at c1
    have e0 : toMat (den .rv (⟨σ.v s⟩ : RotVec)) * S.R a = toMat (den .rv (⟨σ.v s⟩ : RotVec) * den (D.rot a) (σ.R a)) := by
      rw [toMat_mul, (h.R a).2]
    rw [e0, tame_iff] at c3
    obtain ⟨v1, d1⟩ := exp_spec (P := P) (k := D.rot a) c1
    obtain ⟨v, e⟩ := mult_spec (P := P) v1 (h.R a).1 (fun _ => by rw [d1]; exact c1) (fun e => (cl a).mp (c2 e))
      (fun e => by rw [d1]; exact c3 (Or.inr e))
    rw [d1] at e
    refine ⟨h.setR d ?_, rfl⟩
    have := to_dest (P := P) (d := D.rot d) (r := boxPlus P (D.rot a) (σ.R a) (σ.v s)) v e c3
    exact ⟨this.1, this.2.trans (by rw [← h.v s, crossMat_toVec, exp_den, e0])⟩
  | rOfPose d t =>
    refine ⟨h.setR d ?_, rfl⟩
    have := to_dest (P := P) (d := D.rot d) (h.T t).1 rfl (fun e => (clT t).mp (ho e))
    exact ⟨this.1, this.2.trans (h.block t).symm⟩
  | tAssign d s =>
    refine ⟨h.setT d (to_dest (P := P) (d := D.pose d) (h.T s).1 rfl (fun e => (clT s).mp (ho e))) rfl (h.T s).2, rfl⟩
  | tMul d a b =>
    obtain ⟨c1, c2, c3⟩ := ho
    obtain ⟨v, e⟩ := mult_spec (P := P) (h.T a).1 (h.T b).1 (fun e => (clT a).mp (c1 e)) (fun e => (clT b).mp (c2 e))
      (fun e => (clT2 a b).mp (c3 (Or.inr e)))
    refine ⟨h.setT d (to_dest (P := P) (d := D.pose d) v e (fun x => (clT2 a b).mp (c3 x))) rfl ?_, rfl⟩
    rw [toMat_mul, ← (h.T a).2, ← (h.T b).2, rigid_mul]
    congr 1
    change toVec ((σ.T a).position + rotate P (D.pose a) (σ.T a).rotation (σ.T b).position) = _
    rw [toVec_add, rotT a _ c1, h.block]
  | tIdentity d =>
    obtain ⟨v, e⟩ := identity_spec (D.pose d)
    refine ⟨h.setT d (A := 1) (p := 0) ⟨v, by rw [show (Pose.Identity (D.pose d)).rotation = identity (D.pose d) from rfl, e, toMat_one]⟩ ?_ rigid_one, rfl⟩
    ext i; fin_cases i <;> rfl
  | tMake d p r =>
    refine ⟨h.setT d (to_dest (P := P) (d := D.pose d) (h.R r).1 rfl (fun e => (cl r).mp (ho e))) (h.v p) ?_, rfl⟩
    rw [(h.R r).2]
  | tSetRotation d r =>
    refine ⟨h.setT d (to_dest (P := P) (d := D.pose d) (h.R r).1 rfl (fun e => (cl r).mp (ho e))) (h.column d).symm ?_, rfl⟩
    rw [(h.R r).2]
  | tSetPosition d s =>
    exact ⟨h.setT d ⟨(h.T d).1, (h.block d).symm⟩ (h.v s) rfl, rfl⟩
  | vOfPose d t => exact ⟨h.setV d (h.column t).symm, rfl⟩
  | vRotate d r s => exact ⟨h.setV d (by rw [rot r _ ho, h.v]), rfl⟩
  | vInverseRotate d r s => exact ⟨h.setV d (by rw [irot r _ ho, h.v]), rfl⟩
  | vTransform d t s =>
    refine ⟨h.setV d ?_, rfl⟩
    rw [Pose.transform, toVec_add, rotT t _ ho, h.v, ← (h.T t).2, movePoint_rigid, block_rigid]
  | vInverseTransform d t s =>
    refine ⟨h.setV d ?_, rfl⟩
    have hs : toMat (den (D.pose t) (σ.T t).rotation) * toMat (den (D.pose t) (σ.T t).rotation).transpose = 1 := by
      rw [← toMat_mul, (den_isSO3 (h.T t).1).1, toMat_one]
    rw [Pose.inverseTransform, irotT t _ ho, toVec_sub, h.v, ← (h.T t).2, rigid_inv hs, movePoint_rigid, Matrix.mulVec_sub,
      sub_eq_add_neg]
  | vAdd d a b => exact ⟨h.setV d (by rw [toVec_add, h.v, h.v]), rfl⟩
  | vSub d a b => exact ⟨h.setV d (by rw [toVec_sub, h.v, h.v]), rfl⟩
  | vScale d c a => exact ⟨h.setV d (by rw [toVec_smul, h.v]), rfl⟩
  | vCross d a b => exact ⟨h.setV d (by rw [toVec_cross, h.v, h.v]), rfl⟩
  | printVector a => exact ⟨h, by simp only [libExec, idealExec, h.v]⟩
  | printRotation a =>
    refine ⟨h, ?_⟩
    have : toMat (conv P .mat (D.rot a) (σ.R a) : M3) = S.R a := mat_of_action fun v => rot a v ho
    simp only [libExec, idealExec, this]
  | printPose a =>
    refine ⟨h, ?_⟩
    simp only [libExec, idealExec]
    congr 2
    apply mat4_ext
    intro p
    have hx : ExactBranch P .mat (D.pose a) (σ.T a).rotation := exact_to_nonrv (by decide) fun e => (clT a).mp (ho e)
    rw [(C43_matrix_action P _ (σ.T a) p).2, C42_transform_spec P _ (σ.T a) (h.T a).1 hx]
    exact ((represents_iff σ S).mpr h).2.1 a |>.2 p
  | printDisparity a b =>
    refine ⟨h, ?_⟩
    simp only [libExec, idealExec]
    rw [disparity_eq (h.R a).1 (h.R b).1 ⟨fun e => (cl a).mp (ho.1 e).1, fun e => (cl b).mp (ho.2 e), fun e => by
      have := (ho.1 e).2
      rwa [rel, tame_iff] at this⟩, rel, angleOf, toMat_trace]
    rfl

private lemma eq_quat_mat (P : Prec) {k : Kind} (hk : k = .quat ∨ k = .mat) (a b : Rep k) (ha : Valid k a) (hb : Valid k b) :
    eqSame P k a b = true ↔ den k a = den k b := by
  rw [← sameRot_iff]
  rcases hk with rfl | rfl
  · exact ((C14_quaternion_unique P a b ha hb).2.2.2.2.1).symm
  · rw [sameRot_iff, den_eq, den_eq]
    exact decide_eq_true_iff

private lemma test_sim (P : Prec) {σ : Vars D} {S : Ideal} (h : MSim σ S) (t : Test) (ht : TestOk P D S t) :
    libTest P σ t ↔ idealTest S t := by
  have cl : ∀ i, Tame P (S.R i) ↔ Clear P (den (D.rot i) (σ.R i)) := fun i => by rw [← (h.R i).2, tame_iff]
  have rel : ∀ i j, S.R i * (S.R j)⁻¹ = toMat (den (D.rot i) (σ.R i) * (den (D.rot j) (σ.R j)).transpose) := fun i j => by
    rw [← (h.R i).2, ← (h.R j).2, toMat_inv (den_isSO3 (h.R j).1), ← toMat_mul]
  cases t with
  | near a b tol =>
    simp only [libTest, idealTest, isNear, decide_eq_true_eq]
    rw [disparity_eq (h.R a).1 (h.R b).1 ⟨fun e => (cl a).mp (ht.1 e).1, fun e => (cl b).mp (ht.2 e), fun e => by
      have := (ht.1 e).2
      rwa [rel, tame_iff] at this⟩, rel, angleOf, toMat_trace]
    rfl
  | rEq a b =>
    obtain ⟨h1, h2⟩ := ht
    simp only [libTest, idealTest]
    rw [dif_pos h1.symm, ← (h.R a).2, ← (h.R b).2]
    have key : ∀ (k k' : Kind) (e : k' = k) (hk : k = .quat ∨ k = .mat) (x : Rep k) (y : Rep k') (hx : Valid k x)
        (hy : Valid k' y), eqSame P k x (e ▸ y) = true ↔ toMat (den k x) = toMat (den k' y) := by
      intro k k' e hk x y hx hy
      subst e
      rw [eq_quat_mat P hk x y hx hy]
      exact ⟨fun e => by rw [e], toMat_injective⟩
    exact key _ _ h1.symm h2 _ _ (h.R a).1 (h.R b).1
  | tEq a b =>
    obtain ⟨h1, h2⟩ := ht
    simp only [libTest, idealTest]
    rw [dif_pos h1.symm, ← (h.T a).2, ← (h.T b).2]
    have key : ∀ (k k' : Kind) (e : k' = k) (hk : k = .quat ∨ k = .mat) (x : Pose k) (y : Pose k') (hx : Valid k x.rotation)
        (hy : Valid k' y.rotation), x.eqSame P k (e ▸ y) = true ↔
          rigid (toMat (den k x.rotation)) (toVec x.position) = rigid (toMat (den k' y.rotation)) (toVec y.position) := by
      intro k k' e hk x y hx hy
      subst e
      rw [Pose.eqSame, Bool.and_eq_true, decide_eq_true_iff, eq_quat_mat P hk _ _ hx hy]
      exact ⟨fun e => by rw [e.1, e.2], fun e => ⟨toVec_injective (rigid_injective e).2, toMat_injective (rigid_injective e).1⟩⟩
    exact key _ _ h1.symm h2 _ _ (h.T a).1 (h.T b).1
  | shorter a c =>
    simp only [libTest, idealTest]
    rw [← h.v a]
    have : (σ.v a).norm = Real.sqrt (toVec (σ.v a) 0 ^ 2 + toVec (σ.v a) 1 ^ 2 + toVec (σ.v a) 2 ^ 2) := by
      simp only [V3.norm, V3.normSq, V3.dot, toVec]
      congr 1
      change _ = (σ.v a).x ^ 2 + (σ.v a).y ^ 2 + (σ.v a).z ^ 2
      ring
    rw [this]

/-- **C79.** Let the library variables represent the ideal ones, and let the side condition hold at every step of the *ideal*
run.  Then after every number of steps of every program, terminating or not, the library run has executed the same operations
and taken the same branches (the same program remains), has printed exactly the same values, and its variables hold admissible
values that represent the ideal ones. -/
theorem C79_machine_refinement (P : Prec) (D : Decl) (p : Prog) (σ : Vars D) (S : Ideal) (h : Represents σ S)
    (hok : ∀ n, StepOk P D (after ideal p S n)) (n : ℕ) :
    (after (library P D) p σ n).todo = (after ideal p S n).todo ∧
    (after (library P D) p σ n).printed = (after ideal p S n).printed ∧
    Represents (D := D) (after (library P D) p σ n).state (after ideal p S n).state := by
  rw [represents_iff] at h
  suffices hmain : (after (library P D) p σ n).todo = (after ideal p S n).todo ∧
      (after (library P D) p σ n).printed = (after ideal p S n).printed ∧
      MSim (D := D) (after (library P D) p σ n).state (after ideal p S n).state from
    ⟨hmain.1, hmain.2.1, (represents_iff _ _).mpr hmain.2.2⟩
  induction n with
  | zero => exact ⟨rfl, rfl, h⟩
  | succ n ih =>
    have hs := hok n
    simp only [after, Function.iterate_succ', Function.comp_apply] at ih hs ⊢
    generalize Config.step^[n] (⟨[p], σ, []⟩ : Config (library P D)) = c at ih ⊢
    generalize Config.step^[n] (⟨[p], S, []⟩ : Config ideal) = d at ih hs ⊢
    obtain ⟨ct, cs, cp⟩ := c
    obtain ⟨dt, ds, dp⟩ := d
    obtain ⟨h1, h2, h3⟩ := ih
    change ct = dt at h1
    change cp = dp at h2
    change MSim (D := D) cs ds at h3
    subst h1 h2
    cases ct with
    | nil => exact ⟨rfl, rfl, h3⟩
    | cons q k =>
      cases q with
      | op o =>
        obtain ⟨e1, e2⟩ := exec_sim P h3 o hs
        refine ⟨rfl, ?_, e1⟩
        change cp ++ (libExec P cs o).2 = cp ++ (idealExec ds o).2
        rw [e2]
      | seq p q => exact ⟨rfl, rfl, h3⟩
      | ite t p q =>
        refine ⟨?_, rfl, h3⟩
        change (if libTest P cs t then p :: k else q :: k) = (if idealTest ds t then p :: k else q :: k)
        exact if_congr (test_sim P h3 t hs) rfl rfl
      | loop t p =>
        refine ⟨?_, rfl, h3⟩
        change (if libTest P cs t then p :: .loop t p :: k else k) = (if idealTest ds t then p :: .loop t p :: k else k)
        exact if_congr (test_sim P h3 t hs) rfl rfl

/-- Operations without a small-angle branch. -/
def Spec.PlainOp : Op → Prop
  | .rExp _ _ => False
  | .rBoxPlus _ _ _ => False
  | _ => True

/-- `==` only between two quaternions or two matrices (poses: with such rotations). -/
def Spec.PlainTest (D : Decl) : Test → Prop
  | .rEq a b => D.rot a = D.rot b ∧ (D.rot a = .quat ∨ D.rot a = .mat)
  | .tEq a b => D.pose a = D.pose b ∧ (D.pose a = .quat ∨ D.pose a = .mat)
  | _ => True

/-- Programs made of such operations and tests. -/
def Spec.PlainProg (D : Decl) : Prog → Prop
  | .op o => PlainOp o
  | .seq p q => PlainProg D p ∧ PlainProg D q
  | .ite t p q => PlainTest D t ∧ PlainProg D p ∧ PlainProg D q
  | .loop t p => PlainTest D t ∧ PlainProg D p

private lemma plain_step {D : Decl} (c : Config ideal) (h : ∀ q ∈ c.todo, PlainProg D q) :
    ∀ q ∈ c.step.todo, PlainProg D q := by
  obtain ⟨t, s, o⟩ := c
  cases t with
  | nil => exact h
  | cons q k =>
    have hk : ∀ r ∈ k, PlainProg D r := fun r hr => h r (List.mem_cons_of_mem _ hr)
    have hq : PlainProg D q := h q List.mem_cons_self
    have two : ∀ {a b : Prog}, PlainProg D a → PlainProg D b → ∀ r ∈ a :: b :: k, PlainProg D r := by
      intro a b ha hb r hr
      rcases List.mem_cons.mp hr with rfl | hr
      · exact ha
      rcases List.mem_cons.mp hr with rfl | hr
      · exact hb
      · exact hk r hr
    have one : ∀ {a : Prog}, PlainProg D a → ∀ r ∈ a :: k, PlainProg D r := by
      intro a ha r hr
      rcases List.mem_cons.mp hr with rfl | hr
      · exact ha
      · exact hk r hr
    cases q with
    | op o => exact hk
    | seq a b => exact two hq.1 hq.2
    | ite t a b =>
      simp only [Config.step]
      split_ifs
      · exact one hq.2.1
      · exact one hq.2.2
    | loop t a =>
      simp only [Config.step]
      split_ifs
      · exact two hq.2 hq
      · exact hk

/-- **C79, unconditional.** If no variable is declared with a `RotationVector` and the program does not use the exponential map,
the only requirement is that `==` is applied to two quaternions or two rotation matrices: every such program, with any nesting
of branches and loops, behaves like the matrix program at every step. -/
theorem C79_machine_unconditional (P : Prec) (D : Decl) (hD : ∀ i, D.rot i ≠ .rv ∧ D.pose i ≠ .rv) (p : Prog)
    (hp : PlainProg D p) (σ : Vars D) (S : Ideal) (h : Represents σ S) (n : ℕ) :
    (after (library P D) p σ n).todo = (after ideal p S n).todo ∧
    (after (library P D) p σ n).printed = (after ideal p S n).printed ∧
    Represents (D := D) (after (library P D) p σ n).state (after ideal p S n).state := by
  refine C79_machine_refinement P D p σ S h (fun n => ?_) n
  have hpl : ∀ n, ∀ q ∈ (after ideal p S n).todo, PlainProg D q := by
    intro n
    induction n with
    | zero => intro q hq; rw [List.mem_singleton.mp hq]; exact hp
    | succ n ih =>
      have : after ideal p S (n + 1) = (after ideal p S n).step := by
        simp only [after, Function.iterate_succ', Function.comp_apply]
      rw [this]
      exact plain_step _ ih
  have hn := hpl n
  generalize after ideal p S n = c at hn ⊢
  obtain ⟨t, s, o⟩ := c
  have nR : ∀ {i : ℕ} {q : Prop}, D.rot i = .rv → q := fun {i} _ h => absurd h (hD i).1
  have nT : ∀ {i : ℕ} {q : Prop}, D.pose i = .rv → q := fun {i} _ h => absurd h (hD i).2
  have tests : ∀ t, PlainTest D t → TestOk P D s t := by
    intro t ht
    cases t with
    | near a b tol => exact ⟨nR, nR⟩
    | rEq a b => exact ht
    | tEq a b => exact ht
    | shorter a c => trivial
  cases t with
  | nil => trivial
  | cons q k =>
    have hq := hn q List.mem_cons_self
    cases q with
    | op o =>
      change OpOk P D s o
      cases o
      case rAssign => exact fun h => h.elim nR nR
      case rMul => exact ⟨nR, nR, fun h => h.elim nR nR⟩
      case rInv => exact fun h => h.elim nR nR
      case rExp => exact hq.elim
      case rBoxPlus => exact hq.elim
      case rOfPose => exact fun h => h.elim nR nT
      case tAssign => exact fun h => h.elim nT nT
      case tMul => exact ⟨nT, nT, fun h => h.elim nT nT⟩
      case tMake => exact fun h => h.elim nT nR
      case tSetRotation => exact fun h => h.elim nT nR
      case vRotate => exact nR
      case vInverseRotate => exact nR
      case vTransform => exact nT
      case vInverseTransform => exact nT
      case printRotation => exact nR
      case printPose => exact nT
      case printDisparity => exact ⟨nR, nR⟩
      all_goals trivial
    | seq a b => trivial
    | ite t a b => exact tests t hq.1
    | loop t a => exact tests t hq.1

/-- The identity store represents the identity matrices, whatever the declared classes. -/
lemma represents_identity (D : Decl) (v : ℕ → V3) :
    Represents (D := D) ⟨fun i => identity (D.rot i), fun i => Pose.Identity (D.pose i), v⟩
      ⟨fun _ => 1, fun _ => 1, fun i => toVec (v i)⟩ := by
  rw [represents_iff]
  refine ⟨fun i => ⟨(identity_spec _).1, ?_⟩, fun i => ⟨(identity_spec (D.pose i)).1, ?_⟩, fun i => rfl⟩
  · change toMat (den (D.rot i) (identity (D.rot i))) = 1
    rw [(identity_spec _).2, toMat_one]
  · change rigid (toMat (den (D.pose i) (identity (D.pose i)))) (toVec ⟨0, 0, 0⟩) = 1
    rw [(identity_spec _).2, toMat_one, ← rigid_one]
    congr 1
    ext i; fin_cases i <;> rfl

/-- non-vacuity: a program with a loop around a branch over quaternions, matrices, Euler angles and poses of mixed classes is
covered without side condition: while two rotations are near each other, compose poses and rotations of different classes, and
print on one branch. -/
example :
    let D : Decl := ⟨fun i => if i = 0 then .quat else if i = 1 then .mat else .zyx, fun i => if i = 0 then .aa else .quat⟩
    (∀ i, D.rot i ≠ .rv ∧ D.pose i ≠ .rv) ∧
    PlainProg D (.seq (.op (.tMake 0 3 2)) (.loop (.near 0 2 (1 / 10))
      (.seq (.op (.tMul 1 0 0)) (.seq (.op (.rMul 0 1 2)) (.ite (.tEq 1 2) (.op (.printPose 1)) (.op (.vTransform 0 1 0))))))) ∧
    ∃ (σ : Vars D) (S : Ideal), Represents σ S := by
  intro D
  refine ⟨fun i => ⟨?_, ?_⟩, ?_, _, _, represents_identity D (fun _ => ⟨1, 2, 3⟩)⟩
  · simp only [D]; split_ifs <;> decide
  · simp only [D]; split_ifs <;> decide
  · simp [PlainProg, PlainOp, PlainTest, D]

/-- non-vacuity of the refinement theorem with exponential maps: `R 0 = exp(v 0); print(R 0);` with a rotation-vector variable
meets the side condition at every step, for every scalar type. -/
example (P : Prec) :
    let D : Decl := ⟨fun _ => .rv, fun _ => .quat⟩
    ∀ n, StepOk P D (after ideal (.seq (.op (.rExp 0 0)) (.op (.printRotation 0)))
      ⟨fun _ => 1, fun _ => 1, fun _ => toVec ⟨0, 3 / 5, 4 / 5⟩⟩ n) := by
  intro D n
  have ht : Tame P (NormedSpace.exp (crossMat (toVec ⟨0, 3 / 5, 4 / 5⟩))) := by
    rw [crossMat_toVec, exp_den, tame_iff]
    have h : (⟨0, 3 / 5, 4 / 5⟩ : V3).norm = 1 := V3.norm_eq_one_iff.mpr (by norm_num [V3.normSq, V3.dot])
    exact clear_of_norm' (by rw [h]; norm_num) (by rw [h]; linarith [Real.pi_gt_three])
  match n with
  | 0 => trivial
  | 1 => exact ht
  | 2 =>
    intro _
    change Tame P (Function.update (fun _ => (1 : Matrix (Fin 3) (Fin 3) ℝ)) 0 _ 0)
    rw [Function.update_self]
    exact ht
  | n + 3 =>
    have : ∀ (c : Config ideal), c.todo = [] → ∀ m, Config.step^[m] c = c := by
      intro c hc m
      have h1 : c.step = c := by simp only [Config.step, hc]
      exact Function.iterate_fixed h1 m
    rw [after, Function.iterate_add_apply, this _ rfl]
    trivial

end Kindr
