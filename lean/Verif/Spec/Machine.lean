import Mathlib.LinearAlgebra.CrossProduct
import Verif.Spec.Program
import Verif.Spec.Pose

/-!
# Programs with branches and loops over rotations, poses and vectors, and the machine they should implement

The language has three kinds of variables (rotations, poses, vectors), assignments, branches and loops.  Its control flow is
defined once, for any machine that can execute the commands and decide the tests (`Machine`, `Config.step`); programs may run
forever, and the theorems are about the configuration after every number of steps.

Two machines run it:

* `library`: the model of kindr,
* `ideal`: a rotation is a 3x3 Mathlib matrix, a pose a 4x4 Mathlib matrix, a vector a Mathlib vector.
-/

set_option autoImplicit false

open Classical

noncomputable section
namespace Kindr.Spec
open Kindr

/-! ## The language -/

/-- One assignment or output.  `R d` stands for rotation variable `d`, `T d` for a pose variable, `v d` for a vector variable. -/
inductive Op
  /-- `R d = R s;` any two classes -/
  | rAssign (d s : ℕ)
  /-- `R d = R a * R b;` -/
  | rMul (d a b : ℕ)
  /-- `R d = R a.inverted();` -/
  | rInv (d a : ℕ)
  /-- `R d.setIdentity();` -/
  | rIdentity (d : ℕ)
  /-- `R d = D::exponentialMap(v s);` -/
  | rExp (d s : ℕ)
  /-- `R d = R a.boxPlus(v s);` -/
  | rBoxPlus (d a s : ℕ)
  /-- `R d = T t.getRotation();` -/
  | rOfPose (d t : ℕ)
  /-- `T d = T s;` any two classes -/
  | tAssign (d s : ℕ)
  /-- `T d = T a * T b;` -/
  | tMul (d a b : ℕ)
  /-- `T d.setIdentity();` -/
  | tIdentity (d : ℕ)
  /-- `T d = Pose(v p, R r);` -/
  | tMake (d p r : ℕ)
  /-- `T d.getRotation() = R r;` -/
  | tSetRotation (d r : ℕ)
  /-- `T d.getPosition() = v s;` -/
  | tSetPosition (d s : ℕ)
  /-- `v d = T t.getPosition();` -/
  | vOfPose (d t : ℕ)
  /-- `v d = R r.rotate(v s);` -/
  | vRotate (d r s : ℕ)
  /-- `v d = R r.inverseRotate(v s);` -/
  | vInverseRotate (d r s : ℕ)
  /-- `v d = T t.transform(v s);` -/
  | vTransform (d t s : ℕ)
  /-- `v d = T t.inverseTransform(v s);` -/
  | vInverseTransform (d t s : ℕ)
  /-- `v d = v a + v b;` -/
  | vAdd (d a b : ℕ)
  /-- `v d = v a - v b;` -/
  | vSub (d a b : ℕ)
  /-- `v d = c * v a;` -/
  | vScale (d : ℕ) (c : ℝ) (a : ℕ)
  /-- `v d = v a.cross(v b);` -/
  | vCross (d a b : ℕ)
  /-- `print(v a);` -/
  | printVector (a : ℕ)
  /-- `print(RotationMatrix(R a));` -/
  | printRotation (a : ℕ)
  /-- `print(T a.getTransformationMatrix());` -/
  | printPose (a : ℕ)
  /-- `print(R a.getDisparityAngle(R b));` -/
  | printDisparity (a b : ℕ)

/-- A condition of a branch or loop. -/
inductive Test
  /-- `R a.isNear(R b, tol)` -/
  | near (a b : ℕ) (tol : ℝ)
  /-- `R a == R b` -/
  | rEq (a b : ℕ)
  /-- `T a == T b` -/
  | tEq (a b : ℕ)
  /-- `v a.norm() < c` -/
  | shorter (a : ℕ) (c : ℝ)

/-- Programs. -/
inductive Prog
  | op (o : Op)
  | seq (p q : Prog)
  | ite (t : Test) (p q : Prog)
  | loop (t : Test) (p : Prog)

/-- A printed value. -/
inductive Printed
  | vector (v : Fin 3 → ℝ)
  | rotation (m : Matrix (Fin 3) (Fin 3) ℝ)
  | pose (m : Matrix (Fin 4) (Fin 4) ℝ)
  | number (x : ℝ)

/-- Something that can run programs: it executes single operations and decides tests. -/
structure Machine where
  State : Type
  exec : Op → State → State × List Printed
  test : Test → State → Prop

/-- A configuration: what remains to be run, the variables, and everything printed so far. -/
structure Config (M : Machine) where
  todo : List Prog
  state : M.State
  printed : List Printed

/-- One step.  A configuration with nothing left to run stays as it is. -/
def Config.step {M : Machine} (c : Config M) : Config M :=
  match c.todo with
  | [] => c
  | .op o :: k => ⟨k, (M.exec o c.state).1, c.printed ++ (M.exec o c.state).2⟩
  | .seq p q :: k => ⟨p :: q :: k, c.state, c.printed⟩
  | .ite t p q :: k => ⟨if M.test t c.state then p :: k else q :: k, c.state, c.printed⟩
  | .loop t p :: k => ⟨if M.test t c.state then p :: .loop t p :: k else k, c.state, c.printed⟩

/-- The configuration after `n` steps of the program `p` started in `s`. -/
def after (M : Machine) (p : Prog) (s : M.State) (n : ℕ) : Config M := Config.step^[n] ⟨[p], s, []⟩

/-! ## The library as a machine -/

/-- The declared classes of the rotation and pose variables. -/
structure Decl where
  rot : ℕ → Kind
  pose : ℕ → Kind

/-- The variables of the library program. -/
structure Vars (D : Decl) where
  R : (i : ℕ) → Rep (D.rot i)
  T : (i : ℕ) → Pose (D.pose i)
  v : ℕ → V3

variable {D : Decl}
/-- Assignment to a rotation variable. -/
def Vars.setR (σ : Vars D) (d : ℕ) (x : Rep (D.rot d)) : Vars D := { σ with R := Function.update σ.R d x }
/-- Assignment to a pose variable. -/
def Vars.setT (σ : Vars D) (d : ℕ) (x : Pose (D.pose d)) : Vars D := { σ with T := Function.update σ.T d x }
/-- Assignment to a vector variable. -/
def Vars.setV (σ : Vars D) (d : ℕ) (x : V3) : Vars D := { σ with v := Function.update σ.v d x }

/-- One operation, executed by the library. -/
def libExec (P : Prec) (σ : Vars D) : Op → Vars D × List Printed
  | .rAssign d s => (σ.setR d (conv P (D.rot d) (D.rot s) (σ.R s)), [])
  | .rMul d a b => (σ.setR d (conv P (D.rot d) (D.rot a) (mult P (D.rot a) (D.rot b) (σ.R a) (σ.R b))), [])
  | .rInv d a => (σ.setR d (conv P (D.rot d) (D.rot a) (inverted (D.rot a) (σ.R a))), [])
  | .rIdentity d => (σ.setR d (identity (D.rot d)), [])
  | .rExp d s => (σ.setR d (exponentialMap P (D.rot d) (σ.v s)), [])
  | .rBoxPlus d a s => (σ.setR d (conv P (D.rot d) (D.rot a) (boxPlus P (D.rot a) (σ.R a) (σ.v s))), [])
  | .rOfPose d t => (σ.setR d (conv P (D.rot d) (D.pose t) (σ.T t).rotation), [])
  | .tAssign d s => (σ.setT d (Pose.ofPose P (D.pose d) (D.pose s) (σ.T s)), [])
  | .tMul d a b =>
      (σ.setT d (Pose.ofPose P (D.pose d) (D.pose a) ((σ.T a).mult P (D.pose a) (D.pose b) (σ.T b))), [])
  | .tIdentity d => (σ.setT d (Pose.Identity (D.pose d)), [])
  | .tMake d p r => (σ.setT d ⟨σ.v p, conv P (D.pose d) (D.rot r) (σ.R r)⟩, [])
  | .tSetRotation d r => (σ.setT d { σ.T d with rotation := conv P (D.pose d) (D.rot r) (σ.R r) }, [])
  | .tSetPosition d s => (σ.setT d { σ.T d with position := σ.v s }, [])
  | .vOfPose d t => (σ.setV d (σ.T t).position, [])
  | .vRotate d r s => (σ.setV d (rotate P (D.rot r) (σ.R r) (σ.v s)), [])
  | .vInverseRotate d r s => (σ.setV d (inverseRotate P (D.rot r) (σ.R r) (σ.v s)), [])
  | .vTransform d t s => (σ.setV d ((σ.T t).transform P (D.pose t) (σ.v s)), [])
  | .vInverseTransform d t s => (σ.setV d ((σ.T t).inverseTransform P (D.pose t) (σ.v s)), [])
  | .vAdd d a b => (σ.setV d (σ.v a + σ.v b), [])
  | .vSub d a b => (σ.setV d (σ.v a - σ.v b), [])
  | .vScale d c a => (σ.setV d (c • σ.v a), [])
  | .vCross d a b => (σ.setV d ((σ.v a).cross (σ.v b)), [])
  | .printVector a => (σ, [.vector (toVec (σ.v a))])
  | .printRotation a => (σ, [.rotation (toMat (conv P .mat (D.rot a) (σ.R a)))])
  | .printPose a => (σ, [.pose (toMat4 ((σ.T a).getTransformationMatrix P (D.pose a)))])
  | .printDisparity a b => (σ, [.number (disparityAngle P (D.rot a) (D.rot b) (σ.R a) (σ.R b))])

/-- The tests, decided by the library.  `==` dispatches on whether the two classes are the same. -/
def libTest (P : Prec) (σ : Vars D) : Test → Prop
  | .near a b tol => isNear P (D.rot a) (D.rot b) (σ.R a) (σ.R b) tol = true
  | .rEq a b =>
      if h : D.rot b = D.rot a then eqSame P (D.rot a) (σ.R a) (h ▸ σ.R b) = true
      else eqMixed P (D.rot a) (D.rot b) (σ.R a) (σ.R b) = true
  | .tEq a b =>
      if h : D.pose b = D.pose a then (σ.T a).eqSame P (D.pose a) (h ▸ σ.T b) = true
      else (σ.T a).eqMixed P (D.pose a) (D.pose b) (σ.T b) = true
  | .shorter a c => (σ.v a).norm < c

/-- The library. -/
@[reducible] def library (P : Prec) (D : Decl) : Machine := ⟨Vars D, fun o σ => libExec P σ o, fun t σ => libTest P σ t⟩

/-! ## The ideal machine -/

/-- The 4x4 matrix of "rotate by `A`, then translate by `p`". -/
def rigid (A : Matrix (Fin 3) (Fin 3) ℝ) (p : Fin 3 → ℝ) : Matrix (Fin 4) (Fin 4) ℝ :=
  !![A 0 0, A 0 1, A 0 2, p 0; A 1 0, A 1 1, A 1 2, p 1; A 2 0, A 2 1, A 2 2, p 2; 0, 0, 0, 1]

/-- The upper left 3x3 block. -/
def block (M : Matrix (Fin 4) (Fin 4) ℝ) : Matrix (Fin 3) (Fin 3) ℝ :=
  !![M 0 0, M 0 1, M 0 2; M 1 0, M 1 1, M 1 2; M 2 0, M 2 1, M 2 2]

/-- The last column. -/
def column (M : Matrix (Fin 4) (Fin 4) ℝ) : Fin 3 → ℝ := ![M 0 3, M 1 3, M 2 3]

/-- The image of a point, through homogeneous coordinates. -/
def movePoint (M : Matrix (Fin 4) (Fin 4) ℝ) (p : Fin 3 → ℝ) : Fin 3 → ℝ :=
  ![M.mulVec ![p 0, p 1, p 2, 1] 0, M.mulVec ![p 0, p 1, p 2, 1] 1, M.mulVec ![p 0, p 1, p 2, 1] 2]

/-- The matrix of `u ↦ w × u`. -/
def crossMat (w : Fin 3 → ℝ) : Matrix (Fin 3) (Fin 3) ℝ := !![0, -w 2, w 1; w 2, 0, -w 0; -w 1, w 0, 0]

/-- The ideal variables. -/
structure Ideal where
  R : ℕ → Matrix (Fin 3) (Fin 3) ℝ
  T : ℕ → Matrix (Fin 4) (Fin 4) ℝ
  v : ℕ → Fin 3 → ℝ

/-- Assignment to a rotation variable. -/
def Ideal.setR (S : Ideal) (d : ℕ) (x : Matrix (Fin 3) (Fin 3) ℝ) : Ideal := { S with R := Function.update S.R d x }
/-- Assignment to a pose variable. -/
def Ideal.setT (S : Ideal) (d : ℕ) (x : Matrix (Fin 4) (Fin 4) ℝ) : Ideal := { S with T := Function.update S.T d x }
/-- Assignment to a vector variable. -/
def Ideal.setV (S : Ideal) (d : ℕ) (x : Fin 3 → ℝ) : Ideal := { S with v := Function.update S.v d x }

/-- One operation on matrices. -/
def idealExec (S : Ideal) : Op → Ideal × List Printed
  | .rAssign d s => (S.setR d (S.R s), [])
  | .rMul d a b => (S.setR d (S.R a * S.R b), [])
  | .rInv d a => (S.setR d (S.R a)⁻¹, [])
  | .rIdentity d => (S.setR d 1, [])
  | .rExp d s => (S.setR d (NormedSpace.exp (crossMat (S.v s))), [])
  | .rBoxPlus d a s => (S.setR d (NormedSpace.exp (crossMat (S.v s)) * S.R a), [])
  | .rOfPose d t => (S.setR d (block (S.T t)), [])
  | .tAssign d s => (S.setT d (S.T s), [])
  | .tMul d a b => (S.setT d (S.T a * S.T b), [])
  | .tIdentity d => (S.setT d 1, [])
  | .tMake d p r => (S.setT d (rigid (S.R r) (S.v p)), [])
  | .tSetRotation d r => (S.setT d (rigid (S.R r) (column (S.T d))), [])
  | .tSetPosition d s => (S.setT d (rigid (block (S.T d)) (S.v s)), [])
  | .vOfPose d t => (S.setV d (column (S.T t)), [])
  | .vRotate d r s => (S.setV d ((S.R r).mulVec (S.v s)), [])
  | .vInverseRotate d r s => (S.setV d ((S.R r)⁻¹.mulVec (S.v s)), [])
  | .vTransform d t s => (S.setV d (movePoint (S.T t) (S.v s)), [])
  | .vInverseTransform d t s => (S.setV d (movePoint (S.T t)⁻¹ (S.v s)), [])
  | .vAdd d a b => (S.setV d (S.v a + S.v b), [])
  | .vSub d a b => (S.setV d (S.v a - S.v b), [])
  | .vScale d c a => (S.setV d (c • S.v a), [])
  | .vCross d a b => (S.setV d (crossProduct (S.v a) (S.v b)), [])
  | .printVector a => (S, [.vector (S.v a)])
  | .printRotation a => (S, [.rotation (S.R a)])
  | .printPose a => (S, [.pose (S.T a)])
  | .printDisparity a b => (S, [.number (angleOf (S.R a * (S.R b)⁻¹))])

/-- The tests on matrices: `==` is equality. -/
def idealTest (S : Ideal) : Test → Prop
  | .near a b tol => angleOf (S.R a * (S.R b)⁻¹) ≤ tol
  | .rEq a b => S.R a = S.R b
  | .tEq a b => S.T a = S.T b
  | .shorter a c => Real.sqrt (S.v a 0 ^ 2 + S.v a 1 ^ 2 + S.v a 2 ^ 2) < c

/-- The ideal machine. -/
@[reducible] def ideal : Machine := ⟨Ideal, fun o S => idealExec S o, fun t S => idealTest S t⟩

/-! ## Representation and side conditions -/

/-- The library variables represent the ideal ones: every rotation and pose satisfies its class invariant and acts on vectors
and points exactly as the ideal matrix does, and the vectors are the same. -/
def Represents (σ : Vars D) (S : Ideal) : Prop :=
  (∀ i, Valid (D.rot i) (σ.R i) ∧ ∀ u, toVec (act (D.rot i) (σ.R i) u) = (S.R i).mulVec (toVec u)) ∧
  (∀ i, ValidPose (D.pose i) (σ.T i) ∧ ∀ p, homogeneous (move (D.pose i) (σ.T i) p) = (S.T i).mulVec (homogeneous p)) ∧
  ∀ i, toVec (σ.v i) = S.v i

/-- The side condition of an operation, about ideal values only: a value that passes through a rotation vector is not a tiny
nonzero rotation. -/
def OpOk (P : Prec) (D : Decl) (S : Ideal) : Op → Prop
  | .rAssign d s => D.rot d = .rv ∨ D.rot s = .rv → Tame P (S.R s)
  | .rMul d a b => (D.rot a = .rv → Tame P (S.R a)) ∧ (D.rot b = .rv → Tame P (S.R b)) ∧
      (D.rot d = .rv ∨ D.rot a = .rv → Tame P (S.R a * S.R b))
  | .rInv d a => D.rot d = .rv ∨ D.rot a = .rv → Tame P (S.R a)
  | .rExp _ s => Tame P (NormedSpace.exp (crossMat (S.v s)))
  | .rBoxPlus d a s => Tame P (NormedSpace.exp (crossMat (S.v s))) ∧ (D.rot a = .rv → Tame P (S.R a)) ∧
      (D.rot d = .rv ∨ D.rot a = .rv → Tame P (NormedSpace.exp (crossMat (S.v s)) * S.R a))
  | .rOfPose d t => D.rot d = .rv ∨ D.pose t = .rv → Tame P (block (S.T t))
  | .tAssign d s => D.pose d = .rv ∨ D.pose s = .rv → Tame P (block (S.T s))
  | .tMul d a b => (D.pose a = .rv → Tame P (block (S.T a))) ∧ (D.pose b = .rv → Tame P (block (S.T b))) ∧
      (D.pose d = .rv ∨ D.pose a = .rv → Tame P (block (S.T a) * block (S.T b)))
  | .tMake d _ r => D.pose d = .rv ∨ D.rot r = .rv → Tame P (S.R r)
  | .tSetRotation d r => D.pose d = .rv ∨ D.rot r = .rv → Tame P (S.R r)
  | .vRotate _ r _ => D.rot r = .rv → Tame P (S.R r)
  | .vInverseRotate _ r _ => D.rot r = .rv → Tame P (S.R r)
  | .vTransform _ t _ => D.pose t = .rv → Tame P (block (S.T t))
  | .vInverseTransform _ t _ => D.pose t = .rv → Tame P (block (S.T t))
  | .printRotation a => D.rot a = .rv → Tame P (S.R a)
  | .printPose a => D.pose a = .rv → Tame P (block (S.T a))
  | .printDisparity a b => (D.rot a = .rv → Tame P (S.R a) ∧ Tame P (S.R a * (S.R b)⁻¹)) ∧ (D.rot b = .rv → Tame P (S.R b))
  | _ => True

/-- The side condition of a test: `==` is used between two quaternions or two matrices (for the other classes and for mixed
classes it is not equality of rotations: C46, C49, C69). -/
def TestOk (P : Prec) (D : Decl) (S : Ideal) : Test → Prop
  | .near a b _ => (D.rot a = .rv → Tame P (S.R a) ∧ Tame P (S.R a * (S.R b)⁻¹)) ∧ (D.rot b = .rv → Tame P (S.R b))
  | .rEq a b => D.rot a = D.rot b ∧ (D.rot a = .quat ∨ D.rot a = .mat)
  | .tEq a b => D.pose a = D.pose b ∧ (D.pose a = .quat ∨ D.pose a = .mat)
  | .shorter _ _ => True

/-- The next step of an ideal configuration meets its side condition. -/
def StepOk (P : Prec) (D : Decl) (c : Config ideal) : Prop :=
  match c.todo with
  | .op o :: _ => OpOk P D c.state o
  | .ite t _ _ :: _ => TestOk P D c.state t
  | .loop t _ :: _ => TestOk P D c.state t
  | _ => True

end Kindr.Spec
