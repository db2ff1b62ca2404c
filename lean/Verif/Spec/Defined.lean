import Verif.Model.SpecialOps
import Verif.Spec.Special
import Verif.Spec.Program

/-!
# Specification vocabulary for definedness

`XArith.exact` is exact arithmetic in which a division by zero gives an infinity or NaN, and the root of a negative number NaN.  A
function is defined on an input if its special-value version, run in this arithmetic on the embedded input, returns an
embedded (finite) value.
-/

set_option autoImplicit false

open Classical

noncomputable section
namespace Kindr.Spec
open Kindr

/-- The stored values from which a `RotationVector` can be computed without dividing by zero. -/
def LogDefined (P : Prec) : (s : Kind) → Rep s → Prop
  | .quat => fun (q : Quat) => q.vec ≠ 0 ∨ 1 - q.w ^ 2 < P.dp
  | .mat => fun (m : M3) => m ≠ m.transpose ∨ m.trace ≤ 0 ∨ 3 - 4 * P.dp < m.trace
  | _ => fun _ => True

/-- Three NaNs. -/
def nan3 : XV3 := ⟨.nan, .nan, .nan⟩

/-- The value of a call that may throw, embedded by `f`. -/
def mapRes {α β : Type} (f : α → β) : Res α → Res β
  | .ok a => .ok (f a)
  | .throws => .throws

/-- A printed special value. -/
inductive XOut
  | vec (v : XV3)
  | num (x : XR)
  | bool (b : Prop)

/-- One command (`Cmd`), executed by the library in the arithmetic `A`; compare `step`. -/
def xStep (A : XArith) (P : Prec) (cls : ℕ → Kind) (σ : (i : ℕ) → XRep (cls i)) :
    Cmd → ((i : ℕ) → XRep (cls i)) × List XOut
  | .assign d s => (Function.update σ d (A.conv P (cls d) (cls s) (σ s)), [])
  | .mul d a b => (Function.update σ d (A.conv P (cls d) (cls a) (A.mult P (cls a) (cls b) (σ a) (σ b))), [])
  | .inv d a => (Function.update σ d (A.conv P (cls d) (cls a) (A.inverted (cls a) (σ a))), [])
  | .setIdentity d => (Function.update σ d (XArith.identity (cls d)), [])
  | .exp d w => (Function.update σ d (A.exponentialMap P (cls d) (emb3 w)), [])
  | .boxPlus d a w => (Function.update σ d (A.conv P (cls d) (cls a) (A.boxPlus P (cls a) (σ a) (emb3 w))), [])
  | .setUnique d => (Function.update σ d (A.getUnique P (cls d) (σ d)), [])
  | .rotate a v => (σ, [.vec (A.rotate P (cls a) (σ a) (emb3 v))])
  | .inverseRotate a v => (σ, [.vec (A.inverseRotate P (cls a) (σ a) (emb3 v))])
  | .disparity a b => (σ, [.num (A.disparityAngle P (cls a) (cls b) (σ a) (σ b))])
  | .isNear a b tol => (σ, [.bool (A.isNear P (cls a) (cls b) (σ a) (σ b) (.fin tol) = true)])

/-- A whole program in the arithmetic `A`: the final variables and everything printed. -/
def xRun (A : XArith) (P : Prec) (cls : ℕ → Kind) :
    ((i : ℕ) → XRep (cls i)) → List Cmd → ((i : ℕ) → XRep (cls i)) × List XOut
  | σ, [] => (σ, [])
  | σ, c :: p =>
    ((xRun A P cls (xStep A P cls σ c).1 p).1, (xStep A P cls σ c).2 ++ (xRun A P cls (xStep A P cls σ c).1 p).2)

/-- A finite printed value. -/
def embOut : Out → XOut
  | .vec v => .vec ⟨.fin (v 0), .fin (v 1), .fin (v 2)⟩
  | .num x => .num (.fin x)
  | .bool b => .bool b

/-- Every variable holds an admissible value before each command of the program. -/
def AlwaysValid (P : Prec) (cls : ℕ → Kind) : ((i : ℕ) → Rep (cls i)) → List Cmd → Prop
  | _, [] => True
  | σ, c :: p => (∀ i, Valid (cls i) (σ i)) ∧ AlwaysValid P cls (step P cls σ c).1 p

end Kindr.Spec
