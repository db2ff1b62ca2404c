import Verif.Model.Range
import Verif.Model.PhysicalType

/-!
# Vectors of one number type, factors of another

`Vector<PhysicalType_, PrimType_, Dimension_>` is a template in its number type, and the scalar operators accept a factor of any
arithmetic type.  This file models `int` (32 bits), `float` and `double` vectors, factors of each of these types, the conversion
between the types, and the undefined behaviour of `int` arithmetic (`none`).
-/

set_option autoImplicit false

open Classical

noncomputable section
namespace Kindr

/-- `PrimType_`, include/kindr/vectors/Vector.hpp:50-51: 32-bit `int`, `float` or `double`. -/
inductive NumType where
  | int | float | double
deriving DecidableEq

namespace NumType

/-- The values of a number type: integers, or reals, infinities and NaN; `Scalar`, include/kindr/vectors/Vector.hpp:73-75. -/
@[reducible] def Val : NumType → Type
  | .int => ℤ
  | .float => XR
  | .double => XR

/-- The values of a 32-bit `int`. -/
def Fits (z : ℤ) : Prop := -2 ^ 31 ≤ z ∧ z < 2 ^ 31

/-- An `int` result: undefined behaviour outside the range (C++11 [expr]/4). -/
def checked (z : ℤ) : Option ℤ := if Fits z then some z else none

/-- The value of a real number cut off towards zero. -/
def trunc (x : ℝ) : ℤ := if 0 ≤ x then ⌊x⌋ else ⌈x⌉

/-- Conversion of a floating-point number to `int` (C++11 [conv.fpint]): cut off; undefined if the result does not fit. -/
def toInt : XR → Option ℤ
  | .fin x => checked (trunc x)
  | _ => none

/-- Conversion of a `double` to `float`. -/
def narrow : XR → XR
  | .fin x => Format.float.arith.rnd x
  | x => x

/-- `(Dest)x` and `static_cast<Dest>(x)`, as used in include/kindr/vectors/Vector.hpp:99, 366, 386, 398, 425, 445, 628, 696. -/
def cast : (src dst : NumType) → src.Val → Option dst.Val
  | .int, .int, x => some x
  | .int, .float, x => some (Format.float.arith.rnd x)
  | .int, .double, x => some (Format.double.arith.rnd x)
  | .float, .int, x => toInt x
  | .double, .int, x => toInt x
  | .float, .float, x => some x
  | .float, .double, x => some x
  | .double, .double, x => some x
  | .double, .float, x => some (narrow x)

/-- `a * b` in one number type. -/
def mul : (p : NumType) → p.Val → p.Val → Option p.Val
  | .int, a, b => checked (a * b)
  | .float, a, b => some (Format.float.arith.mul a b)
  | .double, a, b => some (Format.double.arith.mul a b)

/-- `a / b` in one number type: `int` division cuts off and is undefined for a zero divisor (and for `INT_MIN / -1`). -/
def div : (p : NumType) → p.Val → p.Val → Option p.Val
  | .int, a, b => if b = 0 then none else checked (Int.tdiv a b)
  | .float, a, b => some (Format.float.arith.div a b)
  | .double, a, b => some (Format.double.arith.div a b)

/-- `a + b` in one number type. -/
def add : (p : NumType) → p.Val → p.Val → Option p.Val
  | .int, a, b => checked (a + b)
  | .float, a, b => some (Format.float.arith.add a b)
  | .double, a, b => some (Format.double.arith.add a b)

/-- Zero of the number type. -/
def zero : (p : NumType) → p.Val
  | .int => (0 : ℤ)
  | .float => XR.fin 0
  | .double => XR.fin 0

end NumType

/-- `Vector<., p, n>` without its physical type, include/kindr/vectors/Vector.hpp:50-70. -/
@[reducible] def NVec (p : NumType) (n : ℕ) : Type := Fin n → p.Val

/-- A vector of results: undefined if one of them is. -/
def collect {α : Type} {n : ℕ} (g : Fin n → Option α) : Option (Fin n → α) :=
  if h : ∀ i, (g i).isSome then some fun i => (g i).get (h i) else none

namespace NVec
variable {p q : NumType} {n : ℕ}

/-- Conversion constructor from another number type, include/kindr/vectors/Vector.hpp:95-100. -/
def ofVec (p : NumType) (v : NVec q n) : Option (NVec p n) := collect fun i => NumType.cast q p (v i)

/-- `operator*(PrimTypeFactor_)`, include/kindr/vectors/Vector.hpp:364-367: the factor is converted first. -/
def mulScalar (v : NVec p n) (factor : q.Val) : Option (NVec p n) :=
  (NumType.cast q p factor).bind fun c => collect fun i => p.mul (v i) c

/-- `operator/(PrimTypeDivisor_)`, include/kindr/vectors/Vector.hpp:384-387: the divisor is converted first. -/
def divScalar (v : NVec p n) (divisor : q.Val) : Option (NVec p n) :=
  (NumType.cast q p divisor).bind fun c => collect fun i => p.div (v i) c

/-- `factor * vector`, include/kindr/vectors/Vector.hpp:626-629. -/
def scalarMul (factor : q.Val) (v : NVec p n) : Option (NVec p n) :=
  (NumType.cast q p factor).bind fun c => mulScalar (q := p) v c

/-- `operator*=(PrimTypeFactor_)`, include/kindr/vectors/Vector.hpp:423-427. -/
def mulAssign (v : NVec p n) (factor : q.Val) : Option (NVec p n) :=
  (NumType.cast q p factor).bind fun c => collect fun i => p.mul (v i) c

/-- `operator*=(Vector<Typeless, PrimTypeFactor_, 1>)`, include/kindr/vectors/Vector.hpp:433-437. -/
def mulAssignV (v : NVec p n) (factor : NVec q 1) : Option (NVec p n) := mulAssign (q := q) v (factor 0)

/-- `operator/=(PrimTypeDivisor_)`, include/kindr/vectors/Vector.hpp:443-447. -/
def divAssign (v : NVec p n) (divisor : q.Val) : Option (NVec p n) :=
  (NumType.cast q p divisor).bind fun c => collect fun i => p.div (v i) c

/-- `operator/=(Vector<Typeless, PrimTypeDivisor_, 1>)`, include/kindr/vectors/Vector.hpp:453-457. -/
def divAssignV (v : NVec p n) (divisor : NVec q 1) : Option (NVec p n) := divAssign (q := q) v (divisor 0)

/-- `MultiplicationTraits<Vector<., p, n>, Vector<., q, 1>>::multiply`, include/kindr/vectors/Vector.hpp:686-698. -/
def mulV (v : NVec p n) (factor : NVec q 1) : Option (NVec p n) :=
  (NumType.cast q p (factor 0)).bind fun c => mulScalar (q := p) v c

/-- `MultiplicationTraits<Vector<., p, 1>, Vector<., p, n>>::multiply`, include/kindr/vectors/Vector.hpp:700-712: the operands are
swapped.  (Both number types have to agree: see `productType`.) -/
def vMul (factor : NVec p 1) (v : NVec p n) : Option (NVec p n) := mulV v factor

/-- `dot`, include/kindr/vectors/Vector.hpp:527-531. -/
def dot (a b : NVec p n) : Option p.Val :=
  (List.finRange n).foldlM (fun s i => (p.mul (a i) (b i)).bind fun t => p.add s t) p.zero

/-- `sum`, include/kindr/vectors/Vector.hpp:602-604. -/
def sum (a : NVec p n) : Option p.Val := (List.finRange n).foldlM (fun s i => p.add s (a i)) p.zero

/-- `mean`, include/kindr/vectors/Vector.hpp:609-611 (Eigen: `sum() / Scalar(size())`). -/
def mean (a : NVec p n) : Option p.Val :=
  (sum a).bind fun s => (NumType.cast .int p (n : ℤ)).bind fun c => p.div s c

/-- `projectOn`, include/kindr/vectors/Vector.hpp:553-556. -/
def projectOn (a b : NVec p n) : Option (NVec p n) :=
  (dot a b).bind fun d => (dot b b).bind fun s => (p.div d s).bind fun c => mulScalar (q := p) b c

end NVec

/-! ## Which products and quotients of typed vectors are programs -/

/-- `Dimension_`: `-1` is `Eigen::Dynamic`, include/kindr/vectors/Vector.hpp:58-62. -/
inductive Dim where
  | dynamic
  | static (n : ℕ)
deriving DecidableEq

/-- The template arguments of `Vector`, include/kindr/vectors/Vector.hpp:50-51. -/
structure VType where
  phys : PhysicalType
  num : NumType
  dim : Dim

/-- `MultiplicationDimensionTraits<d1, d2>::ReturnDimension`; `none` is the `static_assert`,
include/kindr/vectors/Vector.hpp:649-675. -/
def multDim : Dim → Dim → Option Dim
  | d, .static 1 => some d
  | .static 1, d => some d
  | _, _ => none

/-- `MultiplicationReturnTypeTraits<Vector1, Vector2>::ReturnType`, include/kindr/vectors/Vector.hpp:677-684. -/
def multReturn (a b : VType) : Option VType := (multDim a.dim b.dim).map fun d => ⟨a.phys.multType b.phys, a.num, d⟩

/-- The type of `a * b` for two vectors, or `none` if it does not compile, include/kindr/vectors/Vector.hpp:369-378, 686-712.  If only
the first factor is one-dimensional, the product of the swapped factors is returned, and the conversion from its type to the
declared return type is not implicit: both must be the same type. -/
def productType (a b : VType) : Option VType :=
  if b.dim = .static 1 then multReturn a b
  else if a.dim = .static 1 ∧ multReturn b a = multReturn a b then multReturn a b
  else none

/-- `DivisionDimensionTraits<d1, d2>::ReturnDimension`, include/kindr/vectors/Vector.hpp:714-733. -/
def divDim : Dim → Dim → Option Dim
  | d, .static 1 => some d
  | _, _ => none

/-- The type of `a / b` for two vectors, include/kindr/vectors/Vector.hpp:389-399, 735-742: `DivisionReturnTypeTraits` is defined for equal
number types only. -/
def quotientType (a b : VType) : Option VType :=
  if b.dim = .static 1 ∧ a.num = b.num then (divDim a.dim b.dim).map fun d => ⟨a.phys.divType b.phys, a.num, d⟩ else none

end Kindr
