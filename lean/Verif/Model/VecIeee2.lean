import Verif.Model.VecIeee

/-!
# Comparison and projection of vectors in IEEE arithmetic

`isSimilarTo` and `projectOn` of `Vector` on numbers that may be infinite or NaN.  As in `Model/VecIeee.lean` the order in which Eigen
combines the coefficients of a reduction is an argument.  Simplified: `maxCoeff()` combines two coefficients with `std::max` (scalar
code, Eigen without NaN propagation); vectorized maxima may treat NaN differently.
-/

set_option autoImplicit false

open Classical

noncomputable section
namespace Kindr

/-- An Eigen reduction with `std::max` in a given order, include/kindr/vectors/Vector.hpp:588-590. -/
def XR.reduceMax {ι : Type} (c : ι → XR) : SumOrder ι → XR
  | .leaf i => c i
  | .node l r => (reduceMax c l).max (reduceMax c r)

/-- `abs`, include/kindr/vectors/Vector.hpp:581-583. -/
def XR.vAbs {n : ℕ} (a : XVec n) : XVec n := fun i => (a i).abs

/-- `max`, include/kindr/vectors/Vector.hpp:588-590. -/
def XR.vMax {n : ℕ} (t : SumOrder (Fin n)) (a : XVec n) : XR := XR.reduceMax a t

namespace XArith
variable (A : XArith) {n : ℕ}

/-- `isSimilarTo`, include/kindr/vectors/Vector.hpp:487-493. -/
def vIsSimilarTo (t : SumOrder (Fin n)) (a other : XVec n) (tol : XR) : Bool :=
  if (XR.vMax t (XR.vAbs (A.vSub a other))).lt tol then true else false

/-- `squaredNorm`, include/kindr/vectors/Vector.hpp:505-507. -/
def vSquaredNorm (t : SumOrder (Fin n)) (a : XVec n) : XR := A.vDot t a a

/-- `projectOn`, include/kindr/vectors/Vector.hpp:553-556; the two reductions may add in different orders. -/
def vProjectOn (t s : SumOrder (Fin n)) (a other : XVec n) : XVec n := A.vMul other (A.div (A.vDot t a other) (A.vSquaredNorm s other))

end XArith
end Kindr
