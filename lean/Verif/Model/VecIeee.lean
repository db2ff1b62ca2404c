import Verif.Model.Range
import Verif.Model.SpecialOps

/-!
# Vectors of any dimension and wrenches in IEEE arithmetic

The operators of `Vector<PhysicalType_, PrimType_, Dimension_>` and `Wrench` on numbers that may be infinite or NaN.  Eigen may add
the coefficients of a reduction (`sum`, `dot`, `norm`) in any order and grouping, depending on vectorization and unrolling: the
order is an argument (`SumOrder`).  Not modelled: contraction of a product and a sum into one operation (FMA).
-/

set_option autoImplicit false

noncomputable section
namespace Kindr

/-- The coefficients of a vector, include/kindr/vectors/Vector.hpp:50-70. -/
abbrev XVec (n : ℕ) := Fin n → XR

/-- The order and grouping in which a reduction adds its terms. -/
inductive SumOrder (ι : Type) where
  | leaf (i : ι)
  | node (l r : SumOrder ι)

/-- The terms of a reduction from left to right. -/
def SumOrder.leaves {ι : Type} : SumOrder ι → List ι
  | .leaf i => [i]
  | .node l r => l.leaves ++ r.leaves

namespace XArith
variable (A : XArith) {n : ℕ}

/-- `operator+`, `operator+=`, include/kindr/vectors/Vector.hpp:348-350, 405-408. -/
def vAdd (a b : XVec n) : XVec n := fun i => A.add (a i) (b i)
/-- `operator-`, `operator-=`, include/kindr/vectors/Vector.hpp:356-358, 414-417. -/
def vSub (a b : XVec n) : XVec n := fun i => A.sub (a i) (b i)
/-- Unary `operator-`, include/kindr/vectors/Vector.hpp:462-464. -/
def vNeg (a : XVec n) : XVec n := fun i => (a i).neg
/-- `operator*` with a factor of the same number type, include/kindr/vectors/Vector.hpp:364-367, 423-427, 626-629. -/
def vMul (v : XVec n) (factor : XR) : XVec n := fun i => A.mul (v i) factor
/-- `operator/` with a divisor of the same number type, include/kindr/vectors/Vector.hpp:384-387, 443-447. -/
def vDiv (v : XVec n) (divisor : XR) : XVec n := fun i => A.div (v i) divisor

/-- An Eigen reduction (`redux` with `+`) in a given order. -/
def reduce {ι : Type} (c : ι → XR) : SumOrder ι → XR
  | .leaf i => c i
  | .node l r => A.add (reduce c l) (reduce c r)

/-- `sum`, include/kindr/vectors/Vector.hpp:602-604. -/
def vSum (t : SumOrder (Fin n)) (a : XVec n) : XR := A.reduce a t
/-- `dot`, include/kindr/vectors/Vector.hpp:527-531. -/
def vDot (t : SumOrder (Fin n)) (a b : XVec n) : XR := A.reduce (fun i => A.mul (a i) (b i)) t
/-- `mean`, include/kindr/vectors/Vector.hpp:609-611 (Eigen: `sum() / Scalar(size())`). -/
def vMean (t : SumOrder (Fin n)) (a : XVec n) : XR := A.div (A.vSum t a) (A.rnd n)

end XArith

/-- A wrench: force and torque, include/kindr/phys_quant/Wrench.hpp:43-70. -/
structure XWrench where
  force : XVec 3
  torque : XVec 3

namespace XArith
variable (A : XArith)

/-- `Wrench::operator+`, `operator+=`, include/kindr/phys_quant/Wrench.hpp:152-154, 186-190. -/
def wAdd (a b : XWrench) : XWrench := ⟨A.vAdd a.force b.force, A.vAdd a.torque b.torque⟩
/-- `Wrench::operator-`, `operator-=`, include/kindr/phys_quant/Wrench.hpp:160-162, 196-200. -/
def wSub (a b : XWrench) : XWrench := ⟨A.vSub a.force b.force, A.vSub a.torque b.torque⟩
/-- `Wrench::operator*`, `operator*=`, include/kindr/phys_quant/Wrench.hpp:169-171, 207-211. -/
def wMul (a : XWrench) (factor : XR) : XWrench := ⟨A.vMul a.force factor, A.vMul a.torque factor⟩

end XArith
end Kindr
