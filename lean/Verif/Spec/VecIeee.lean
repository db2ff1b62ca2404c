import Verif.Model.VecIeee
import Verif.Spec.Under

/-!
# Specification vocabulary for vectors in IEEE arithmetic
-/

set_option autoImplicit false

noncomputable section
namespace Kindr.Spec
open Kindr

/-- A number of the format: storing it changes nothing. -/
def Storable (f : Format) (x : ℝ) : Prop := f.arith.rnd x = .fin x

/-- A vector of finite numbers. -/
def embV {n : ℕ} (v : Fin n → ℝ) : XVec n := fun i => .fin (v i)

/-- Every coefficient is added exactly once. -/
def Complete {n : ℕ} (t : SumOrder (Fin n)) : Prop := t.leaves.Perm (List.finRange n)

/-- The loop `for (v : l) s += v;`. -/
def sumLoop {n : ℕ} (A : XArith) (s : XVec n) (l : List (XVec n)) : XVec n := l.foldl A.vAdd s

/-- The loop `for (w : l) s += w;` on wrenches. -/
def wrenchLoop (A : XArith) (s : XWrench) (l : List XWrench) : XWrench := l.foldl A.wAdd s

/-- The loop `for ((v, dt) : l) p += v * dt;`. -/
def moveLoop {n : ℕ} (A : XArith) (p : XVec n) (l : List (XVec n × XR)) : XVec n := l.foldl (fun p s => A.vAdd p (A.vMul s.1 s.2)) p

/-- `x` is a whole multiple of `2 ^ k`. -/
def MultipleOf (k : ℤ) (x : ℝ) : Prop := ∃ z : ℤ, x = z * 2 ^ k

end Kindr.Spec
