import Mathlib.Analysis.SpecialFunctions.Trigonometric.Deriv
import Mathlib.Data.List.Infix

/-!
# Matlab's string-based total derivative (matlab/utils/fulldiff2.m, matlab/utils/fulldMATdt.m)

`fulldMATdt(A, n, q, dq, ddq)` is the `n`-th time derivative of a matrix of symbolic expressions.  It decides by comparing the *names*
of the variables, as strings, which variables depend on time and what their derivatives are called; so names are strings here.

Simplifications: expressions are built from numbers, variables, `+ * - 1/x sin cos` (division by an expression is a product with its
inverse, a power is a repeated product); three cell arrays of equal length are one list of triples; a variable name occurs once in `q`
(with repeated names the comma-separated list `vars{k}`, line 227, would have several entries).
-/

set_option autoImplicit false

noncomputable section
namespace Kindr.Matlab

/-- A name, a Matlab character array. -/
abbrev Name := List Char

/-- Matlab's symbolic expressions (class `sym`), as they occur in the arguments of matlab/utils/fulldMATdt.m:12. -/
inductive Sym where
  | num (r : ℝ)
  | var (v : Name)
  | add (a b : Sym)
  | mul (a b : Sym)
  | neg (a : Sym)
  | inv (a : Sym)
  | sin (a : Sym)
  | cos (a : Sym)

namespace Sym

/-- The number zero, the result of differentiating a constant. -/
def isZero : Sym → Prop
  | num r => r = 0
  | _ => False

open Classical in
/-- `a + b` with Matlab's automatic simplification of a zero summand (matlab/utils/fulldiff2.m:144). -/
def plus (a b : Sym) : Sym := if a.isZero then b else if b.isZero then a else add a b

open Classical in
/-- `a * b` with Matlab's automatic simplification of a zero factor (matlab/utils/fulldiff2.m:142, 144). -/
def times (a b : Sym) : Sym := if a.isZero then num 0 else if b.isZero then num 0 else mul a b

open Classical in
/-- `-a`, with `-0 = 0`. -/
def minus (a : Sym) : Sym := if a.isZero then num 0 else neg a

open Classical in
/-- Matlab's symbolic partial derivative `diff(fun, var)`, matlab/utils/fulldiff2.m:140. -/
def diff (v : Name) : Sym → Sym
  | num _ => num 0
  | var w => if w = v then num 1 else num 0
  | add a b => plus (diff v a) (diff v b)
  | mul a b => plus (times (diff v a) b) (times a (diff v b))
  | neg a => minus (diff v a)
  | inv a => times (minus (diff v a)) (mul (inv a) (inv a))
  | sin a => times (diff v a) (cos a)
  | cos a => times (minus (diff v a)) (sin a)

end Sym

/-- What fulldiff2 asks Matlab about its argument: `char(fun)` (line 93), `findsym(fun)` (line 165), whether `str2num` of a character
is not empty (line 215), `str2num` of a string (line 231); and a bound on the passes of the `while true` loop (lines 101-117; it
terminates, `C98_terminates`). -/
structure Toolbox (ι : Type) where
  char : (ι → Sym) → Name
  findsym : (ι → Sym) → List Name
  isNum : Char → Bool
  str2num : Name → ℕ
  passes : ℕ

/-- A time-dependent variable with the names of its derivatives: entry `j` of `vars`, `dvarsIn`, `ddvarsIn`
(matlab/utils/fulldiff2.m:79-89). -/
structure TimeVar where
  q : Name
  dq : Name
  ddq : Name

/-- A row of the cell array `dvars`: a variable and its time derivative. -/
abbrev Row := Name × Name

/-- The name of the `i`-th derivative, `['d',num2str(i),var]`, matlab/utils/fulldiff2.m:106. -/
def hname (i : ℕ) (v : Name) : Name := 'd' :: (i.repr.toList ++ v)

/-- The name of the next derivative as the code builds it, `['d',num2str(i)+1,var]`, matlab/utils/fulldiff2.m:107: `+1` is applied to the
characters of `num2str(i)`. -/
def hname' (i : ℕ) (v : Name) : Name := 'd' :: (i.repr.toList.map (fun c => Char.ofNat (c.toNat + 1)) ++ v)

/-- `fstr` and `fstr2` in pass `i` of the `while` loop, matlab/utils/fulldiff2.m:102-108. -/
def fstr (x : TimeVar) (i : ℕ) : Row := if i = 1 then (x.dq, x.ddq) else (hname i x.q, hname' i x.q)

open Classical in
/-- The `while true` loop, matlab/utils/fulldiff2.m:101-117, from pass `i` on: the rows it writes below the row of the variable. -/
def derivRows (text : Name) (x : TimeVar) : ℕ → ℕ → List Row
  | 0, _ => []
  | n + 1, i => if (fstr x i).1 <:+: text then fstr x i :: derivRows text x n (i + 1) else []

/-- The assignments `dvars{i+prevlength,..}=..` of one variable, matlab/utils/fulldiff2.m:99-100 and 111-112: they overwrite rows from
`prevlength` on and extend the array if necessary. -/
def writeRows (rows : List Row) (prev : ℕ) (new : List Row) : List Row :=
  rows.take prev ++ new ++ rows.drop (prev + new.length)

/-- The loop over the variables, matlab/utils/fulldiff2.m:94-119, starting with the rows left from the previous derivative (`dvars` is
not cleared between the derivatives). -/
def collectRows (text : Name) (passes : ℕ) (xs : List TimeVar) (stale : List Row) : List Row :=
  (xs.foldl (fun s x =>
    let rows := writeRows s.1 s.2 ((x.q, x.dq) :: derivRows text x passes 1)
    (rows, rows.length)) (stale, 0)).1

open Classical in
/-- "eliminate duplicates", matlab/utils/fulldiff2.m:124-131: `strmatch(str, strs)` finds the entries that *begin with* `str`. -/
def dedup : List Row → List Row
  | [] => []
  | r :: rs => r :: dedup (rs.filter (fun r' => ¬ r.1 <+: r'.1))
termination_by rs => rs.length
decreasing_by
  rw [List.length_unattach, List.length_cons]
  exact Nat.lt_succ_of_le ((List.length_filter_le _ _).trans_eq List.length_attach)

open Classical in
/-- The loop over the characters of one variable in `findhigher`, matlab/utils/fulldiff2.m:212-233: `pre` is `var(2:j-1)`, the last
argument is `var(j:end)`. -/
def higherLoop (isNum : Char → Bool) (str2num : Name → ℕ) (vars : List Name) (rows : List Row) (s : Name) :
    ℕ → Name → Name → List Row
  | _, _, [] => []
  | num, pre, c :: cs =>
    if isNum c then higherLoop isNum str2num vars rows s (str2num (pre ++ [c])) (pre ++ [c]) cs
    else (if (c :: cs) ∈ vars ∧ ∀ r ∈ rows, ¬ s <+: r.1 then [(s, hname (num + 1) (c :: cs))] else []) ++
      higherLoop isNum str2num vars rows s num (pre ++ [c]) cs

/-- `findhigher(fun,vars,dvars)`, matlab/utils/fulldiff2.m:162-236: variables of the form `d..x` which have no row yet. -/
def findhigher {ι : Type} (T : Toolbox ι) (f : ι → Sym) (vars : List Name) (rows : List Row) : List Row :=
  rows ++ (T.findsym f).flatMap (fun s => match s with
    | 'd' :: c :: cs => higherLoop T.isNum T.str2num vars rows s 1 [] (c :: cs)
    | _ => [])

/-- The sum of partial derivatives, matlab/utils/fulldiff2.m:137-148, element by element. -/
def fullDiff : List Row → Sym → Sym
  | [], _ => .num 0
  | r :: rs, e => rs.foldl (fun acc r => acc.plus ((e.diff r.1).times (.var r.2))) ((e.diff r.1).times (.var r.2))

/-- One derivative, the body of the loop matlab/utils/fulldiff2.m:92-151; the state is `dvars` and `fun`. -/
def fulldiffStep {ι : Type} (T : Toolbox ι) (xs : List TimeVar) (s : List Row × (ι → Sym)) : List Row × (ι → Sym) :=
  let rows := dedup (collectRows (T.char s.2) T.passes xs s.1)
  let rows := findhigher T s.2 (xs.map TimeVar.q) rows
  (rows, fun i => fullDiff rows (s.2 i))

/-- `fulldiff2(fun, vars, dim, dvars, ddvars)`, matlab/utils/fulldiff2.m:1-151, called with five arguments and cell arrays; an error
(`dout` or `vars` not assigned) is `none`. -/
def fulldiff2 {ι : Type} (T : Toolbox ι) (f : ι → Sym) (xs : List TimeVar) (dim : ℕ) : Option (ι → Sym) :=
  if dim = 0 ∨ xs = [] then none else some ((fulldiffStep T xs)^[dim] ([], f)).2

/-- `fulldMATdt(A, n, q, dq, ddq)`, matlab/utils/fulldMATdt.m:12-17. -/
def fulldMATdt {ι : Type} (T : Toolbox ι) (A : ι → Sym) (n : ℕ) (xs : List TimeVar) : Option (ι → Sym) :=
  if n > 2 then none else fulldiff2 T A xs n

end Kindr.Matlab
