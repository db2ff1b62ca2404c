import Mathlib.Analysis.Real.Sqrt
import Mathlib.Algebra.BigOperators.Fin
import Verif.Model.PhysicalType

/-!
# `kindr::Vector<PhysicalType, PrimType, Dimension>`

The dimension is any natural number, so static and dynamic (`Dimension_ = -1`) vectors are both covered; two dynamic
vectors of different sizes (an Eigen assertion) are ill-typed here.  Eigen's coefficient-wise operators are modelled by
their meaning; `maxCoeff`/`minCoeff`/`sum` are the left-to-right reductions.  Scalars are exact reals (no casts between
primitive types).
-/

set_option autoImplicit false

open Classical

noncomputable section
namespace Kindr

/-- `Vector<PhysicalType_, PrimType_, Dimension_>`, include/kindr/vectors/Vector.hpp:53-70: privately an
`Eigen::Matrix<PrimType_, Dimension_, 1>`. -/
@[ext] structure Vec (t : PhysicalType) (n : ℕ) where
  coeff : Fin n → ℝ

namespace Vec
variable {t t₁ t₂ : PhysicalType} {n m : ℕ}

/-! ## Construction -/

/-- Default constructor of static vectors, `Zero()` and `setZero()`, include/kindr/vectors/Vector.hpp:82-86, 139-149. -/
def Zero : Vec t n := ⟨fun _ => 0⟩

/-- Conversion constructor from a vector of another physical type, include/kindr/vectors/Vector.hpp:95-100. -/
def ofVec (other : Vec t₁ n) : Vec t n := ⟨other.coeff⟩

/-- Constructor from an Eigen vector and `toImplementation()`/`vector()`, include/kindr/vectors/Vector.hpp:110-115,
309-335. -/
def ofEigen (c : Fin n → ℝ) : Vec t n := ⟨c⟩

/-- One-scalar constructor of one-dimensional vectors, include/kindr/vectors/Vector.hpp:117-123. -/
def ofScalar (value : ℝ) : Vec t 1 := ⟨fun _ => value⟩

/-- Three-scalar constructor, include/kindr/vectors/Vector.hpp:125-133. -/
def ofXyz (x y z : ℝ) : Vec t 3 := ⟨![x, y, z]⟩

/-- Eigen's `Unit(i)`: one at `i`, zero elsewhere; `UnitX`, `UnitY`, `UnitZ` are `Unit(0)`, `Unit(1)`, `Unit(2)`. -/
def unit (i : ℕ) : Vec t n := ⟨fun j => if (j : ℕ) = i then 1 else 0⟩

/-- `UnitX()`, include/kindr/vectors/Vector.hpp:169-171. -/
def UnitX : Vec t n := unit 0
/-- `UnitY()`, include/kindr/vectors/Vector.hpp:176-178. -/
def UnitY : Vec t n := unit 1
/-- `UnitZ()`, include/kindr/vectors/Vector.hpp:183-185. -/
def UnitZ : Vec t n := unit 2

/-! ## Component access -/

/-- `x()`, include/kindr/vectors/Vector.hpp:261-275. -/
def x (v : Vec t 3) : ℝ := v.coeff 0
/-- `y()`, include/kindr/vectors/Vector.hpp:277-291. -/
def y (v : Vec t 3) : ℝ := v.coeff 1
/-- `z()`, include/kindr/vectors/Vector.hpp:293-307. -/
def z (v : Vec t 3) : ℝ := v.coeff 2

/-- `getSegment<m>(start)` / `getSegment(start, m)`, include/kindr/vectors/Vector.hpp:225-238.  The range must lie inside the
vector (an Eigen assertion otherwise). -/
def getSegment (v : Vec t n) (start m : ℕ) (h : start + m ≤ n) : Vec t m :=
  ⟨fun i => v.coeff ⟨start + i, by omega⟩⟩

/-- `getHead<m>()` / `getHead(m)`, include/kindr/vectors/Vector.hpp:195-208. -/
def getHead (v : Vec t n) (m : ℕ) (h : m ≤ n) : Vec t m := v.getSegment 0 m (by omega)

/-- `getTail<m>()` / `getTail(m)`, include/kindr/vectors/Vector.hpp:210-223. -/
def getTail (v : Vec t n) (m : ℕ) (h : m ≤ n) : Vec t m := v.getSegment (n - m) m (by omega)

/-- `setSegment(start, input)`, include/kindr/vectors/Vector.hpp:254-259.  (A range outside the vector is an Eigen
assertion in C++; here the outside part would be ignored, and the theorems assume the range is inside.) -/
def setSegment (v : Vec t n) (start : ℕ) (input : Vec t m) : Vec t n :=
  ⟨fun i => if h : start ≤ i ∧ (i : ℕ) < start + m then input.coeff ⟨i - start, by omega⟩ else v.coeff i⟩

/-- `setHead(input)`, include/kindr/vectors/Vector.hpp:240-245. -/
def setHead (v : Vec t n) (input : Vec t m) : Vec t n := v.setSegment 0 input

/-- `setTail(input)`, include/kindr/vectors/Vector.hpp:247-252. -/
def setTail (v : Vec t n) (input : Vec t m) : Vec t n := v.setSegment (n - m) input

/-! ## Arithmetic -/

/-- `operator+`, include/kindr/vectors/Vector.hpp:348-350. -/
def add (a b : Vec t n) : Vec t n := ⟨fun i => a.coeff i + b.coeff i⟩
/-- `operator-`, include/kindr/vectors/Vector.hpp:356-358. -/
def sub (a b : Vec t n) : Vec t n := ⟨fun i => a.coeff i - b.coeff i⟩
/-- `operator*(scalar)` and the free `scalar * vector`, include/kindr/vectors/Vector.hpp:364-367, 622-629. -/
def smul (a : Vec t n) (factor : ℝ) : Vec t n := ⟨fun i => a.coeff i * factor⟩
/-- `operator/(scalar)`, include/kindr/vectors/Vector.hpp:384-387. -/
def sdiv (a : Vec t n) (divisor : ℝ) : Vec t n := ⟨fun i => a.coeff i / divisor⟩
/-- Unary `operator-`, include/kindr/vectors/Vector.hpp:462-464. -/
def neg (a : Vec t n) : Vec t n := ⟨fun i => -a.coeff i⟩

/-- `operator+=`: the new value of `*this`, include/kindr/vectors/Vector.hpp:405-408. -/
def addAssign (a b : Vec t n) : Vec t n := ⟨fun i => a.coeff i + b.coeff i⟩
/-- `operator-=`, include/kindr/vectors/Vector.hpp:414-417. -/
def subAssign (a b : Vec t n) : Vec t n := ⟨fun i => a.coeff i - b.coeff i⟩
/-- `operator*=(scalar)`, include/kindr/vectors/Vector.hpp:423-427. -/
def mulAssign (a : Vec t n) (factor : ℝ) : Vec t n := ⟨fun i => a.coeff i * factor⟩
/-- `operator*=(Vector<Typeless, ., 1>)`, include/kindr/vectors/Vector.hpp:433-437. -/
def mulAssignV (a : Vec t n) (factor : Vec .Typeless 1) : Vec t n := a.mulAssign (factor.coeff 0)
/-- `operator/=(scalar)`, include/kindr/vectors/Vector.hpp:443-447. -/
def divAssign (a : Vec t n) (divisor : ℝ) : Vec t n := ⟨fun i => a.coeff i / divisor⟩
/-- `operator/=(Vector<Typeless, ., 1>)`, include/kindr/vectors/Vector.hpp:453-457. -/
def divAssignV (a : Vec t n) (divisor : Vec .Typeless 1) : Vec t n := a.divAssign (divisor.coeff 0)

/-- `MultiplicationTraits<Vector<.., n>, Vector<.., 1>>::multiply`, include/kindr/vectors/Vector.hpp:686-698. -/
def mulV (a : Vec t₁ n) (b : Vec t₂ 1) : Vec (t₁.multType t₂) n := ofVec (a.smul (b.coeff 0))

/-- `MultiplicationTraits<Vector<.., 1>, Vector<.., n>>::multiply` for `n ≠ 1`: the operands are swapped,
include/kindr/vectors/Vector.hpp:700-712.  The function's declared return type is the product type of `(t₁, t₂)` while the
returned expression has the product type of `(t₂, t₁)`; the conversion constructor is explicit, so this compiles only
if both types are the same (`h`). -/
def vMul (a : Vec t₁ 1) (b : Vec t₂ n) (h : t₂.multType t₁ = t₁.multType t₂) : Vec (t₁.multType t₂) n :=
  h ▸ b.mulV a

/-- `operator/(Vector<.., 1>)`, include/kindr/vectors/Vector.hpp:393-399. -/
def divV (a : Vec t₁ n) (b : Vec t₂ 1) : Vec (t₁.divType t₂) n := ⟨fun i => a.coeff i / b.coeff 0⟩

/-- `elementwiseMultiplication`, include/kindr/vectors/Vector.hpp:562-566. -/
def elementwiseMultiplication (a : Vec t₁ n) (b : Vec t₂ n) : Vec (t₁.multType t₂) n :=
  ⟨fun i => a.coeff i * b.coeff i⟩
/-- `elementwiseDivision`, include/kindr/vectors/Vector.hpp:572-576. -/
def elementwiseDivision (a : Vec t₁ n) (b : Vec t₂ n) : Vec (t₁.divType t₂) n :=
  ⟨fun i => a.coeff i / b.coeff i⟩

/-! ## Comparison, products, reductions -/

/-- `operator==`, include/kindr/vectors/Vector.hpp:470-472: Eigen compares all coefficients. -/
def eq (a b : Vec t n) : Bool := (List.finRange n).all fun i => decide (a.coeff i = b.coeff i)
/-- `operator!=`, include/kindr/vectors/Vector.hpp:478-480: Eigen's `!=` is true iff some coefficients differ. -/
def ne (a b : Vec t n) : Bool := (List.finRange n).any fun i => decide (a.coeff i ≠ b.coeff i)

/-- `dot`, include/kindr/vectors/Vector.hpp:527-531. -/
def dot (a : Vec t₁ n) (b : Vec t₂ n) : ℝ := ∑ i, a.coeff i * b.coeff i
/-- `squaredNorm`, include/kindr/vectors/Vector.hpp:505-507. -/
def squaredNorm (a : Vec t n) : ℝ := ∑ i, a.coeff i * a.coeff i
/-- `norm`, include/kindr/vectors/Vector.hpp:498-500. -/
def norm (a : Vec t n) : ℝ := Real.sqrt a.squaredNorm
/-- `normalized()` and `normalize()`, include/kindr/vectors/Vector.hpp:512-522: Eigen divides by the norm if the squared
norm is positive and leaves the vector unchanged otherwise. -/
def normalized (a : Vec t n) : Vec t n :=
  if 0 < a.squaredNorm then ⟨fun i => a.coeff i / Real.sqrt a.squaredNorm⟩ else a

/-- `cross`, include/kindr/vectors/Vector.hpp:537-541. -/
def cross (a : Vec t₁ 3) (b : Vec t₂ 3) : Vec (t₁.multType t₂) 3 :=
  ⟨![a.coeff 1 * b.coeff 2 - a.coeff 2 * b.coeff 1, a.coeff 2 * b.coeff 0 - a.coeff 0 * b.coeff 2,
     a.coeff 0 * b.coeff 1 - a.coeff 1 * b.coeff 0]⟩

/-- `projectOn`, include/kindr/vectors/Vector.hpp:553-556.  (Returns a vector of the *other* vector's type where the declared
type is this vector's: it compiles only if both physical types are equal.) -/
def projectOn (a other : Vec t n) : Vec t n := other.smul (a.dot other / other.squaredNorm)

/-- `abs`, include/kindr/vectors/Vector.hpp:581-583. -/
def abs (a : Vec t n) : Vec t n := ⟨fun i => |a.coeff i|⟩

/-- `max`, include/kindr/vectors/Vector.hpp:588-590: Eigen's `maxCoeff` starts with the first coefficient and folds (it
asserts that there is at least one). -/
def max (a : Vec t (n + 1)) : ℝ := (List.finRange n).foldl (fun r i => Max.max r (a.coeff i.succ)) (a.coeff 0)
/-- `min`, include/kindr/vectors/Vector.hpp:595-597. -/
def min (a : Vec t (n + 1)) : ℝ := (List.finRange n).foldl (fun r i => Min.min r (a.coeff i.succ)) (a.coeff 0)
/-- `sum`, include/kindr/vectors/Vector.hpp:602-604 (Eigen: zero for an empty vector). -/
def sum (a : Vec t n) : ℝ := (List.finRange n).foldl (fun r i => r + a.coeff i) 0
/-- `mean`, include/kindr/vectors/Vector.hpp:609-611 (Eigen: `sum() / size()`). -/
def mean (a : Vec t n) : ℝ := a.sum / n

/-- `isSimilarTo`, include/kindr/vectors/Vector.hpp:487-493. -/
def isSimilarTo (a other : Vec t (n + 1)) (tol : ℝ) : Bool :=
  if (a.sub other).abs.max < tol then true else false

end Vec
end Kindr
