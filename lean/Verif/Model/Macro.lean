import Verif.Model.Special
import Verif.Model.Throw
import Verif.Model.Print
import Mathlib.Data.Nat.Digits.Defs

/-!
# The assertion macros as program text

`Model/Special.lean` gives the verdict of the assertion macros on values.  Here they are modelled as what they are, pieces of program
text: their operands are expressions that are evaluated (possibly several times, possibly with side effects), their expansion is a
sequence of statements that is pasted into the surrounding code, and their result is the text of an exception.

Simplifications: the operands of one comparison or of one output expression are evaluated from left to right or from right to left (the
language leaves the order open; both are covered by a parameter); the `message` operand is a fixed text; the line number is a natural
number.  Not modelled as text: `KINDR_ASSERT_NEAR` and `KINDR_ASSERT_SCALAR_NEAR_DBG` (their verdicts are in `Model/Special.lean`), and
`KINDR_ASSERT_DBG_RE`, which refers to a macro that does not exist.
-/

set_option autoImplicit false

open Classical

noncomputable section
namespace Kindr.Macro

/-! ## Texts -/

/-- The decimal digits that `out << n` and `std::to_string(n)` write for a line number, include/kindr/common/source_file_pos.hpp:57, 68. -/
def decimal (n : ℕ) : Text := if n = 0 then ['0'] else (Nat.digits 10 n).reverse.map Nat.digitChar

/-- `kindr::internal::source_file_pos`, include/kindr/common/source_file_pos.hpp:40-62. -/
structure SourcePos where
  function : Text
  file : Text
  line : ℕ

/-- `toString()` and the conversion to `std::string`, include/kindr/common/source_file_pos.hpp:49-60. -/
def SourcePos.toText (p : SourcePos) : Text :=
  p.file ++ ":".toList ++ decimal p.line ++ ": ".toList ++ p.function ++ "()".toList

/-- `operator<<` of a source position, include/kindr/common/source_file_pos.hpp:66-70. -/
def SourcePos.stream (p : SourcePos) : Text :=
  p.file ++ (":".toList ++ (decimal p.line ++ (": ".toList ++ (p.function ++ "()".toList))))

/-- `kindr_throw_exception(exceptionType, sfp, message)`: the text handed to the exception,
include/kindr/common/assert_macros.hpp:52-71. -/
def throwText (exceptionType : Text) (p : SourcePos) (message : Text) : Text :=
  exceptionType ++ p.toText ++ " ".toList ++ message

/-- Where a macro stands in the program and with which exception class and message it is used. -/
structure Site where
  exc : Text
  pos : SourcePos
  msg : Text

/-- `KINDR_THROW(exceptionType, message)` and all assertion macros: the prefix `"[" #exceptionType "] "`,
include/kindr/common/assert_macros.hpp:90-101. -/
def Site.what (w : Site) (text : Text) : Text := throwText ("[".toList ++ w.exc ++ "] ".toList) w.pos text

/-! ## Expressions, statements and exceptions -/

/-- An expression with side effects: from the state before to its value and the state after
(the operands of the macros, include/kindr/common/assert_macros.hpp:103-189). -/
abbrev Ev (σ α : Type) := σ → α × σ

/-- How a statement is left. -/
inductive Flow (σ : Type) where
  | next (s : σ)
  | threw (what : Text) (s : σ)

/-- The statements that the macros and the code around them are made of
(include/kindr/common/assert_macros.hpp:103-189: an `if` without braces around it). -/
inductive Stmt (σ : Type) where
  | skip
  | prim (f : σ → Flow σ)
  | ifThen (c : Ev σ Bool) (t : Stmt σ)
  | ifElse (c : Ev σ Bool) (t e : Stmt σ)

/-- Execution of a statement. -/
def Stmt.exec {σ : Type} : Stmt σ → σ → Flow σ
  | .skip, s => .next s
  | .prim f, s => f s
  | .ifThen c t, s => if (c s).1 = true then t.exec (c s).2 else .next (c s).2
  | .ifElse c t e, s => if (c s).1 = true then t.exec (c s).2 else e.exec (c s).2

/-- Execution of a sequence of statements: an exception ends it. -/
def execAll {σ : Type} : List (Stmt σ) → σ → Flow σ
  | [], s => .next s
  | t :: ts, s =>
    match t.exec s with
    | .next s' => execAll ts s'
    | .threw w s' => .threw w s'

/-- Two operands of one expression, evaluated from left to right (`true`) or from right to left (`false`). -/
def ev2 {σ α β : Type} (ltr : Bool) (a : Ev σ α) (b : Ev σ β) : Ev σ (α × β) := fun s =>
  if ltr then (((a s).1, (b (a s).2).1), (b (a s).2).2) else (((a (b s).2).1, (b s).1), (a (b s).2).2)

/-- The relations of the two-operand macros. -/
inductive Rel where
  | lt | ge | le | gt | eq | ne
  deriving DecidableEq

/-- The condition under which the macro throws: `LT` :132, `GE` :140, `LE` :150, `GT` :158, `EQ` :168, `NE` :176 of
include/kindr/common/assert_macros.hpp (and the same in the `_DBG` versions :232-285). -/
def Rel.bad : Rel → XR → XR → Bool
  | .lt => fun v u => decide (u.le v)
  | .ge => fun v u => decide (v.lt u)
  | .le => fun v u => decide (u.lt v)
  | .gt => fun v u => decide (v.le u)
  | .eq => fun v u => decide (¬ v.eq u)
  | .ne => fun v u => decide (v.eq u)

/-- The relation sign in the text of the exception, include/kindr/common/assert_macros.hpp:135, 143, 153, 161, 171, 179. -/
def Rel.sign : Rel → Text
  | .lt => " < ".toList
  | .ge => " >= ".toList
  | .le => " <= ".toList
  | .gt => " > ".toList
  | .eq => " == ".toList
  | .ne => " != ".toList

/-- `"assert("` or `"debug assert("`, include/kindr/common/assert_macros.hpp:107, 207. -/
def label (dbg : Bool) : Text := if dbg then "debug assert(".toList else "assert(".toList

/-- Orders of evaluation of the condition and of the output expression. -/
structure Orders where
  cond : Bool
  print : Bool

/-- Expansion of `KINDR_ASSERT_LT/GE/LE/GT/EQ/NE` and of their `_DBG` versions in a debug build,
include/kindr/common/assert_macros.hpp:131-181, 232-285.  `vs`, `us` are the texts `#value`, `#upperBound`; `fmt` is what the stream
writes for a number. -/
def relBody {σ : Type} (o : Orders) (fmt : XR → Text) (dbg : Bool) (r : Rel) (w : Site) (vs us : Text) (v u : Ev σ XR) : List (Stmt σ) :=
  [.ifThen (fun s => (r.bad (ev2 o.cond v u s).1.1 (ev2 o.cond v u s).1.2, (ev2 o.cond v u s).2))
    (.prim fun s => .threw (w.what (label dbg ++ vs ++ r.sign ++ us ++ ") failed [".toList ++ fmt (ev2 o.print v u s).1.1 ++ r.sign ++
      fmt (ev2 o.print v u s).1.2 ++ "]: ".toList ++ w.msg)) (ev2 o.print v u s).2)]

/-- Expansion of `KINDR_ASSERT_GE_LT(value, lowerBound, upperBound)`: `(value) < (lowerBound) || (value) >= (upperBound)`, the second
comparison only if the first is false, include/kindr/common/assert_macros.hpp:121-127, 222-228. -/
def geLtBody {σ : Type} (o : Orders) (fmt : XR → Text) (dbg : Bool) (w : Site) (vs ls us : Text) (v l u : Ev σ XR) : List (Stmt σ) :=
  [.ifThen (fun s =>
      if Rel.bad .ge (ev2 o.cond v l s).1.1 (ev2 o.cond v l s).1.2 = true then (true, (ev2 o.cond v l s).2)
      else (Rel.bad .lt (ev2 o.cond v u (ev2 o.cond v l s).2).1.1 (ev2 o.cond v u (ev2 o.cond v l s).2).1.2,
        (ev2 o.cond v u (ev2 o.cond v l s).2).2))
    (.prim fun s => .threw (w.what (label dbg ++ ls ++ " <= ".toList ++ vs ++ " < ".toList ++ us ++ ") failed [".toList ++
        fmt (ev2 o.print l (ev2 o.print v u) s).1.1 ++ " <= ".toList ++ fmt (ev2 o.print l (ev2 o.print v u) s).1.2.1 ++ " < ".toList ++
        fmt (ev2 o.print l (ev2 o.print v u) s).1.2.2 ++ "]: ".toList ++ w.msg)) (ev2 o.print l (ev2 o.print v u) s).2)]

/-- Expansion of `KINDR_ASSERT_TRUE(condition)` and, with `neg`, of `KINDR_ASSERT_FALSE(condition)`,
include/kindr/common/assert_macros.hpp:103-117, 203-217; `cs` is the text `#condition`. -/
def boolBody {σ : Type} (dbg neg : Bool) (w : Site) (cs : Text) (c : Ev σ Bool) : List (Stmt σ) :=
  [.ifThen (fun s => (if neg then (c s).1 else !(c s).1, (c s).2))
    (.prim fun s => .threw (w.what (label dbg ++ (if neg then " not ".toList else []) ++ cs ++ ") failed: ".toList ++ w.msg)) s)]

/-- A `_DBG` macro: its expansion in a debug build, nothing in a release build,
include/kindr/common/assert_macros.hpp:193-315. -/
def dbgBody {σ : Type} (b : Build) (body : List (Stmt σ)) : List (Stmt σ) :=
  match b with
  | .debug => body
  | .release => []

/-- `if (c) MACRO(..);` in the program text: the expansion is pasted behind `if (c)`, so only its first statement belongs to the `if`;
an empty expansion leaves the empty statement. -/
def underIf {σ : Type} (c : Ev σ Bool) : List (Stmt σ) → List (Stmt σ)
  | [] => [.ifThen c .skip]
  | t :: ts => .ifThen c t :: ts

/-- `if (c) MACRO(..) else e`: an `else` belongs to the nearest `if` that has none.  `none`: not a program (more than one statement
between `if` and `else`, or none at all). -/
def underIfElse {σ : Type} (c : Ev σ Bool) (e : Stmt σ) : List (Stmt σ) → Option (List (Stmt σ))
  | [.ifThen d t] => some [.ifThen c (.ifElse d t e)]
  | [t] => some [.ifElse c t e]
  | _ => none

/-- Expansion of `KINDR_ASSERT_MATRIX_NEAR_DBG(A, B, tolerance)` in a debug build for two matrix variables: *three* statements, the
comparison of the row counts, the comparison of the column counts, and the loops,
include/kindr/common/assert_macros_eigen.hpp:103-130.  The texts of the exceptions are parameters. -/
def matrixNearBody {σ : Type} (A : XArith) (tol : XR) (a b : DynMat XR) (sizeText : Text) (coeffText : ℕ → ℕ → Text) : List (Stmt σ) :=
  [.ifThen (fun s => (decide (a.rows ≠ b.rows), s)) (.prim fun s => .threw sizeText s),
   .ifThen (fun s => (decide (a.cols ≠ b.cols), s)) (.prim fun s => .threw sizeText s),
   .prim fun s =>
     match loopRows (fun r c => A.compareRelative (a.coeff r c) (b.coeff r c) tol) a.cols 0 a.rows with
     | none => .next s
     | some (r, c) => .threw (coeffText r c) s]

/-! ## Arguments as text -/

/-- A matrix expression, as it may be written as the argument of a macro: a variable, `-a`, `x*a` with a number `x`, or an expression in
parentheses. -/
inductive Arg where
  | var (m : DynMat XR)
  | neg (a : Arg)
  | scale (x : ℝ) (a : Arg)
  | paren (a : Arg)

/-- The matrix that the expression stands for (Eigen's coefficient-wise operations). -/
def Arg.value (A : XArith) : Arg → DynMat XR
  | .var m => m
  | .neg a => ⟨(a.value A).rows, (a.value A).cols, fun r c => ((a.value A).coeff r c).neg⟩
  | .scale x a => ⟨(a.value A).rows, (a.value A).cols, fun r c => A.mul (.fin x) ((a.value A).coeff r c)⟩
  | .paren a => a.value A

/-- The value of the text `matrix.rows()` (or `matrix.cols()`) with the argument pasted in for `matrix`, without parentheses: the member
call binds to the last operand, and the operators in front apply to the *number* it returns,
include/kindr/common/assert_macros_eigen.hpp:150-152. -/
def Arg.textSize (A : XArith) (size : DynMat XR → ℕ) : Arg → ℝ
  | .var m => size m
  | .neg a => -(a.textSize A size)
  | .scale x a => x * a.textSize A size
  | .paren a => size (a.value A)

/-- How the loops of `KINDR_ASSERT_MAT_IS_FINITE` end. -/
inductive FiniteRun where
  | pass
  | throws
  | outOfRange
  deriving DecidableEq

/-- `KINDR_ASSERT_MAT_IS_FINITE(exceptionType, matrix, message)` with the argument pasted in: the loops run over `r < matrix.rows()`,
`c < matrix.cols()` as written; reading a coefficient that the matrix does not have is `outOfRange` (Eigen's own assertion in a debug
build, undefined behaviour in a release build), include/kindr/common/assert_macros_eigen.hpp:148-162. -/
def finiteMacro (A : XArith) (a : Arg) : FiniteRun :=
  match loopRows (fun r c => decide (r < (a.value A).rows ∧ c < (a.value A).cols ∧ ((a.value A).coeff r c).IsFinite))
      ⌈a.textSize A DynMat.cols⌉₊ 0 ⌈a.textSize A DynMat.rows⌉₊ with
  | none => .pass
  | some (r, c) => if r < (a.value A).rows ∧ c < (a.value A).cols then .throws else .outOfRange

/-- The beginning of the text of `KINDR_ASSERT_MAT_IS_FINITE` (`dbg = false`) and `KINDR_ASSERT_MAT_IS_FINITE_DBG` (`dbg = true`),
include/kindr/common/assert_macros_eigen.hpp:157, 176. -/
def finiteLabel (dbg : Bool) : Text := if dbg then "assert( isfinite(".toList else "debug assert( isfinite(".toList

end Kindr.Macro
