import Verif.Model.Special
import Mathlib.Data.EReal.Basic

/-!
# Specification vocabulary for non-finite values
-/

set_option autoImplicit false

open Classical

noncomputable section
namespace Kindr.Spec

/-- Some coefficient of the vector is infinite or NaN. -/
def NonFinite3 (v : XV3) : Prop := ¬ v.x.IsFinite ∨ ¬ v.y.IsFinite ∨ ¬ v.z.IsFinite

/-- Some stored coefficient of the rotation is NaN. -/
def HasNaN : (k : Kind) → XRep k → Prop
  | .quat => fun (q : XQuat) => q.w = .nan ∨ q.x = .nan ∨ q.y = .nan ∨ q.z = .nan
  | .mat => fun (m : XM3) => m.m00 = .nan ∨ m.m01 = .nan ∨ m.m02 = .nan ∨ m.m10 = .nan ∨ m.m11 = .nan ∨ m.m12 = .nan ∨
      m.m20 = .nan ∨ m.m21 = .nan ∨ m.m22 = .nan
  | .aa => fun (a : XAA) => a.angle = .nan ∨ a.axis.x = .nan ∨ a.axis.y = .nan ∨ a.axis.z = .nan
  | .rv => fun (v : XV3) => v.x = .nan ∨ v.y = .nan ∨ v.z = .nan
  | .xyz => fun (v : XV3) => v.x = .nan ∨ v.y = .nan ∨ v.z = .nan
  | .zyx => fun (v : XV3) => v.x = .nan ∨ v.y = .nan ∨ v.z = .nan

/-- The zero vector. -/
def zero3 : XV3 := ⟨.fin 0, .fin 0, .fin 0⟩
/-- The identity as an `AngleAxis`. -/
def idAA : XAA := ⟨.fin 0, ⟨.fin 1, .fin 0, .fin 0⟩⟩

/-- Finite values as special-value data. -/
def emb3 (v : V3) : XV3 := ⟨.fin v.x, .fin v.y, .fin v.z⟩
/-- Finite quaternion. -/
def embQ (q : Quat) : XQuat := ⟨.fin q.w, .fin q.x, .fin q.y, .fin q.z⟩
/-- Finite angle-axis. -/
def embA (a : AngAx) : XAA := ⟨.fin a.angle, emb3 a.axis⟩
/-- Finite matrix. -/
def embM (m : M3) : XM3 := ⟨.fin m.m00, .fin m.m01, .fin m.m02, .fin m.m10, .fin m.m11, .fin m.m12, .fin m.m20, .fin m.m21,
  .fin m.m22⟩
/-- A finite rotation of class `k` (stored Euler angles and rotation vectors as their three coefficients). -/
def embRot : (k : Kind) → Rep k → XRep k
  | .quat => embQ
  | .mat => embM
  | .aa => embA
  | .rv => fun r => emb3 (RotVec.v r)
  | .xyz => fun e => emb3 (EulXyz.v e)
  | .zyx => fun e => emb3 (EulZyx.v e)

/-- The extended real number denoted by a value that is not NaN (the value chosen for NaN is irrelevant). -/
def toEx : XR → EReal
  | .fin x => (x : EReal)
  | .inf true => ⊥
  | .inf false => ⊤
  | .nan => 0

/-- Two matrices have the same size and all corresponding coefficients are related by `R`. -/
def AllCoeffs {α : Type} (R : α → α → Prop) (a b : DynMat α) : Prop :=
  a.rows = b.rows ∧ a.cols = b.cols ∧ ∀ r c, r < a.rows → c < a.cols → R (a.coeff r c) (b.coeff r c)

/-- Some coefficient of the matrix is NaN. -/
def MatHasNaN (a : DynMat XR) : Prop := ∃ r c, r < a.rows ∧ c < a.cols ∧ a.coeff r c = .nan

end Kindr.Spec
