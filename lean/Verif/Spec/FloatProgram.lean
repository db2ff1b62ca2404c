import Verif.Spec.Program
import Verif.Spec.FloatConv
import Verif.Model.FloatUnique

/-!
# Programs in floating point, and a static analysis of their errors

`floatRun` executes the programs of `Spec/Program.lean` with every operation rounded.  The analysis computes, from the text of the
program and from bounds on the initial values, a `Bound` for every variable at every point (`boundStep`), side conditions under which
it applies (`Fits`), and a bound for every printed value (`outErr`).  None of them looks at the values of the variables.
-/

set_option autoImplicit false

open Classical

noncomputable section
namespace Kindr.Spec
open Kindr

/-- One command, executed by the library with every operation rounded. -/
def floatStep (F : FloatWide) (P : Prec) (cls : ℕ → Kind) (σ : (i : ℕ) → Rep (cls i)) : Cmd → ((i : ℕ) → Rep (cls i)) × List Out
  | .assign d s => (Function.update σ d (F.conv P (cls d) (cls s) (σ s)), [])
  | .mul d a b => (Function.update σ d (F.conv P (cls d) (cls a) (F.mult P (cls a) (cls b) (σ a) (σ b))), [])
  | .inv d a => (Function.update σ d (F.conv P (cls d) (cls a) (F.inverted (cls a) (σ a))), [])
  | .setIdentity d => (Function.update σ d (identity (cls d)), [])
  | .exp d w => (Function.update σ d (F.exponentialMap P (cls d) w), [])
  | .boxPlus d a w => (Function.update σ d (F.conv P (cls d) (cls a) (F.boxPlus P (cls a) (σ a) w)), [])
  | .setUnique d => (Function.update σ d (F.getUnique P (cls d) (σ d)), [])
  | .rotate a v => (σ, [.vec (toVec (F.rotate P (cls a) (σ a) v))])
  | .inverseRotate a v => (σ, [.vec (toVec (F.inverseRotate P (cls a) (σ a) v))])
  | .disparity a b => (σ, [.num (F.disparityAngle P (cls a) (cls b) (σ a) (σ b))])
  | .isNear a b tol => (σ, [.bool (F.isNear P (cls a) (cls b) (σ a) (σ b) tol = true)])

/-- A whole program, executed by the library with every operation rounded. -/
def floatRun (F : FloatWide) (P : Prec) (cls : ℕ → Kind) :
    ((i : ℕ) → Rep (cls i)) → List Cmd → ((i : ℕ) → Rep (cls i)) × List Out
  | σ, [] => (σ, [])
  | σ, c :: p => ((floatRun F P cls (floatStep F P cls σ c).1 p).1,
      (floatStep F P cls σ c).2 ++ (floatRun F P cls (floatStep F P cls σ c).1 p).2)

/-- What the analysis knows of a variable: how far the stored numbers are from an exact representation (`off`), how far that
representation is rotated away from the ideal rotation (`err`), and how large the stored angles are (`size`). -/
structure Bound where
  off : ℝ
  err : ℝ
  size : ℝ

/-- The meaning of a bound.  (For matrices the distance of the stored numbers from a rotation matrix is measured by the images of
vectors, for the other classes see `OffBy`.) -/
def Within (b : Bound) (k : Kind) (r : Rep k) (R : M3) : Prop :=
  0 ≤ b.off ∧ angleSize k r ≤ b.size ∧
  ∃ r' : Rep k, Valid k r' ∧ (if k = .mat then ∀ v, (act k r v - act k r' v).norm ≤ b.off * v.norm else OffBy b.off k r r') ∧
    ∀ v, (act k r' v - R.mulVec v).norm ≤ b.err * v.norm

/-- `off` of the result of a conversion to class `d` whose quaternion is off by `e`. -/
def progOff (u e : ℝ) : Kind → ℝ
  | .quat => e
  | .mat => 15 * e + 63 * u
  | .aa => 6 * u
  | _ => 0

/-- `size` of the result of a conversion. -/
def progSize (u : ℝ) (b : Bound) : (d s : Kind) → ℝ
  | .quat, _ => 0
  | .mat, _ => 0
  | .aa, .rv => (1 + 10 * u) * b.size
  | .rv, .aa => (1 + 10 * u) * ((1 + b.off) * b.size)
  | _, _ => 13

/-- Conversion from class `s` to class `d`. -/
def convBound (P : Prec) (u : ℝ) (d s : Kind) (b : Bound) : Bound :=
  if d = s then b
  else ⟨progOff u (quatErr P u b.off b.size s) d, b.err + convLoss P u b.off (quatErr P u b.off b.size s) b.size d, progSize u b d s⟩

/-- Its side condition: the error of the intermediate quaternion is small, and a quaternion that becomes a rotation vector is
normalized well below the threshold of the code (otherwise the code may divide by zero: C84). -/
def convFits (P : Prec) (u : ℝ) (d s : Kind) (b : Bound) : Prop :=
  d = s ∨ quatErr P u b.off b.size s ≤ 1 / 100000 ∧
    (d = .rv → s = .quat ∨ s = .mat → 3 * quatErr P u b.off b.size s + 3 * u ≤ P.dp)

/-- The error of the product of the two quaternions. -/
def mulErr (P : Prec) (u : ℝ) (k₁ k₂ : Kind) (a b : Bound) : ℝ :=
  (1 + quatErr P u a.off a.size k₁) * (1 + quatErr P u b.off b.size k₂) - 1 + 9 * u

/-- Product. -/
def mulBound (P : Prec) (u : ℝ) (k₁ k₂ : Kind) (a b : Bound) : Bound :=
  if k₁ = .mat ∧ k₂ = .mat then ⟨(1 + a.off) * (1 + b.off) - 1 + 11 * u, a.err + b.err, 0⟩
  else ⟨progOff u (mulErr P u k₁ k₂ a b) k₁, a.err + b.err + convLoss P u (mulErr P u k₁ k₂ a b) (mulErr P u k₁ k₂ a b) 0 k₁,
    if k₁ = .quat ∨ k₁ = .mat then 0 else 13⟩

/-- Its side condition. -/
def mulFits (P : Prec) (u : ℝ) (k₁ k₂ : Kind) (a b : Bound) : Prop :=
  if k₁ = .mat ∧ k₂ = .mat then a.off ≤ 1 / 100 ∧ b.off ≤ 1 / 100
  else mulErr P u k₁ k₂ a b ≤ 1 / 100000 ∧ (k₁ = .rv → 3 * mulErr P u k₁ k₂ a b + 3 * u ≤ P.dp)

/-- Inverse. -/
def invBound (P : Prec) (u : ℝ) (k : Kind) (b : Bound) : Bound :=
  if k = .xyz ∨ k = .zyx then ⟨b.off, b.err + convLoss P u b.off (quatErr P u b.off b.size k) 0 k, 13⟩ else b

/-- Its side condition. -/
def invFits (P : Prec) (u : ℝ) (k : Kind) (b : Bound) : Prop :=
  k = .xyz ∨ k = .zyx → quatErr P u b.off b.size k ≤ 1 / 100000

/-- `setUnique()`.  (Two rotations always differ by at most 2 on unit vectors: nothing is known of `EulerAnglesZyx` after
`setUnique()`, C18, C90.) -/
def uniqueBound (P : Prec) (u : ℝ) (k : Kind) (b : Bound) : Bound :=
  match k with
  | .quat => b
  | .mat => b
  | .aa => ⟨b.off, b.err + 450 * u, 4⟩
  | .rv => ⟨b.off, b.err + 1500 * u + P.eps / 700 + 102 / 100 * P.dp, 4⟩
  | .xyz => ⟨b.off, b.err + (2 / 1000 + 1350 * u), 13⟩
  | .zyx => ⟨b.off, 2, 13⟩

/-- Its side condition. -/
def uniqueFits (P : Prec) (u : ℝ) (k : Kind) (b : Bound) : Prop :=
  b.size ≤ 29 ∧ (k = .rv → quatErr P u b.off b.size .rv ≤ 1 / 100000)

/-- The bound of a rotation vector given as a constant. -/
def expArg (w : V3) : Bound := ⟨0, 0, w.norm⟩

/-- The bounds after a command. -/
def boundStep (P : Prec) (u : ℝ) (cls : ℕ → Kind) (β : ℕ → Bound) : Cmd → ℕ → Bound
  | .assign d s => Function.update β d (convBound P u (cls d) (cls s) (β s))
  | .mul d a b => Function.update β d (convBound P u (cls d) (cls a) (mulBound P u (cls a) (cls b) (β a) (β b)))
  | .inv d a => Function.update β d (convBound P u (cls d) (cls a) (invBound P u (cls a) (β a)))
  | .setIdentity d => Function.update β d ⟨0, 0, 0⟩
  | .exp d w => Function.update β d (convBound P u (cls d) .rv (expArg w))
  | .boxPlus d a w => Function.update β d (convBound P u (cls d) (cls a)
      (mulBound P u (cls a) (cls a) (convBound P u (cls a) .rv (expArg w)) (β a)))
  | .setUnique d => Function.update β d (uniqueBound P u (cls d) (β d))
  | _ => β

/-- The bound of the quotient that `getDisparityAngle` forms. -/
def quotBound (P : Prec) (u : ℝ) (k₁ k₂ : Kind) (a b : Bound) : Bound := mulBound P u k₁ k₂ a (invBound P u k₂ b)

/-- The relative error of `rotate`. -/
def rotErr (P : Prec) (u : ℝ) (k : Kind) (b : Bound) : ℝ :=
  b.err + if k = .mat then b.off + 6 * u else 19 * quatErr P u b.off b.size k + 69 * u

/-- The side condition of `rotate`. -/
def rotFits (P : Prec) (u : ℝ) (k : Kind) (b : Bound) : Prop :=
  if k = .mat then b.off ≤ 1 / 100 else quatErr P u b.off b.size k ≤ 1 / 100000

/-- The bound on the error of what a command prints. -/
def outErr (P : Prec) (u : ℝ) (cls : ℕ → Kind) (β : ℕ → Bound) : Cmd → ℝ
  | .rotate a _ => rotErr P u (cls a) (β a)
  | .inverseRotate a _ => rotErr P u (cls a) (invBound P u (cls a) (β a))
  | .disparity a b => 2 * (convBound P u .aa (cls a) (quotBound P u (cls a) (cls b) (β a) (β b))).err + 1000 * u
  | .isNear a b _ => 2 * (convBound P u .aa (cls a) (quotBound P u (cls a) (cls b) (β a) (β b))).err + 1000 * u
  | _ => 0

/-- The side condition of `getDisparityAngle`. -/
def quotFits (P : Prec) (u : ℝ) (k₁ k₂ : Kind) (a b : Bound) : Prop :=
  invFits P u k₂ b ∧ mulFits P u k₁ k₂ a (invBound P u k₂ b) ∧ convFits P u .aa k₁ (quotBound P u k₁ k₂ a b) ∧
    (convBound P u .aa k₁ (quotBound P u k₁ k₂ a b)).size ≤ 30

/-- The side condition of a command. -/
def cmdFits (P : Prec) (u : ℝ) (cls : ℕ → Kind) (β : ℕ → Bound) : Cmd → Prop
  | .assign d s => convFits P u (cls d) (cls s) (β s)
  | .mul d a b => mulFits P u (cls a) (cls b) (β a) (β b) ∧
      convFits P u (cls d) (cls a) (mulBound P u (cls a) (cls b) (β a) (β b))
  | .inv d a => invFits P u (cls a) (β a) ∧ convFits P u (cls d) (cls a) (invBound P u (cls a) (β a))
  | .setIdentity _ => True
  | .exp d w => convFits P u (cls d) .rv (expArg w)
  | .boxPlus d a w => convFits P u (cls a) .rv (expArg w) ∧
      mulFits P u (cls a) (cls a) (convBound P u (cls a) .rv (expArg w)) (β a) ∧
      convFits P u (cls d) (cls a) (mulBound P u (cls a) (cls a) (convBound P u (cls a) .rv (expArg w)) (β a))
  | .setUnique d => uniqueFits P u (cls d) (β d)
  | .rotate a _ => rotFits P u (cls a) (β a)
  | .inverseRotate a _ => invFits P u (cls a) (β a) ∧ rotFits P u (cls a) (invBound P u (cls a) (β a))
  | .disparity a b => quotFits P u (cls a) (cls b) (β a) (β b)
  | .isNear a b _ => quotFits P u (cls a) (cls b) (β a) (β b)

/-- The analysis accepts the program. -/
def Fits (P : Prec) (u : ℝ) (cls : ℕ → Kind) : (ℕ → Bound) → List Cmd → Prop
  | _, [] => True
  | β, c :: p => cmdFits P u cls β c ∧ Fits P u cls (boundStep P u cls β c) p

/-- The bounds at the end of the program. -/
def boundRun (P : Prec) (u : ℝ) (cls : ℕ → Kind) : (ℕ → Bound) → List Cmd → ℕ → Bound
  | β, [] => β
  | β, c :: p => boundRun P u cls (boundStep P u cls β c) p

/-- The bound of the result of `logarithmicMap()`, as a rotation vector. -/
def logBound (P : Prec) (u : ℝ) (k : Kind) (b : Bound) : Bound := uniqueBound P u .rv (convBound P u .rv k b)

/-- The side condition of `logarithmicMap()`. -/
def logFits (P : Prec) (u : ℝ) (k : Kind) (b : Bound) : Prop :=
  convFits P u .rv k b ∧ uniqueFits P u .rv (convBound P u .rv k b)

/-- Euclidean length. -/
def len (v : Fin 3 → ℝ) : ℝ := Real.sqrt (v 0 ^ 2 + v 1 ^ 2 + v 2 ^ 2)

/-- What may be printed by a command executed in the ideal store `S`, with error `ε`: a vector within `ε` (relative) of the ideal
one, an angle within `ε` of the ideal one, a truth value that is right unless the angle is within `ε` of the tolerance. -/
def Allowed (S : Store) (ε : ℝ) : Cmd → List Out → Prop
  | .rotate a v, o => ∃ x, o = [.vec x] ∧ len (x - (S a).mulVec (toVec v)) ≤ ε * len (toVec v)
  | .inverseRotate a v, o => ∃ x, o = [.vec x] ∧ len (x - (S a)⁻¹.mulVec (toVec v)) ≤ ε * len (toVec v)
  | .disparity a b, o => ∃ x, o = [.num x] ∧ |x - angleOf (S a * (S b)⁻¹)| ≤ ε
  | .isNear a b tol, o => ∃ q, o = [.bool q] ∧ (angleOf (S a * (S b)⁻¹) ≤ tol - ε → q) ∧ (q → angleOf (S a * (S b)⁻¹) ≤ tol + ε)
  | _, o => o = []

/-- Everything the program printed is allowed, with the errors given in the list (one for every command). -/
def Prints : List ℝ → Store → List Cmd → List Out → Prop
  | ε :: es, S, c :: p, o => ∃ o₁ o₂, o = o₁ ++ o₂ ∧ Allowed S ε c o₁ ∧ Prints es (idealStep S c).1 p o₂
  | [], _, [], o => o = []
  | _, _, _, _ => False

/-- The bounds on the errors of everything the program prints. -/
def outErrs (P : Prec) (u : ℝ) (cls : ℕ → Kind) : (ℕ → Bound) → List Cmd → List ℝ
  | _, [] => []
  | β, c :: p => outErr P u cls β c :: outErrs P u cls (boundStep P u cls β c) p

/-! ## Counting operations

A coarser analysis for `double` that only counts operations.  Every operation costs one, but a conversion from another class to a
matrix multiplies the cost by 80 (the errors of a matrix are not corrected by later conversions, and a matrix that becomes a quaternion
amplifies them). -/

/-- Cost of a conversion of a value of cost `c`. -/
def convCost (d s : Kind) (c : ℕ) : ℕ := if d = s then c else if d = .mat then 80 * c + 80 else c + 1

/-- Cost of a product. -/
def mulCost (k₁ k₂ : Kind) (c₁ c₂ : ℕ) : ℕ := if k₁ = .mat ∧ k₂ ≠ .mat then 80 * (c₁ + c₂) + 160 else c₁ + c₂ + 1

/-- The cost of every variable after a command. -/
def costStep (cls : ℕ → Kind) (κ : ℕ → ℕ) : Cmd → ℕ → ℕ
  | .assign d s => Function.update κ d (convCost (cls d) (cls s) (κ s))
  | .mul d a b => Function.update κ d (convCost (cls d) (cls a) (mulCost (cls a) (cls b) (κ a) (κ b)))
  | .inv d a => Function.update κ d (convCost (cls d) (cls a) (κ a + 1))
  | .setIdentity d => Function.update κ d 0
  | .exp d _ => Function.update κ d (convCost (cls d) .rv 0)
  | .boxPlus d a _ => Function.update κ d (convCost (cls d) (cls a) (mulCost (cls a) (cls a) (convCost (cls a) .rv 0) (κ a)))
  | .setUnique d => Function.update κ d (κ d + 1)
  | _ => κ

/-- The cost of every variable at the end. -/
def costRun (cls : ℕ → Kind) : (ℕ → ℕ) → List Cmd → ℕ → ℕ
  | κ, [] => κ
  | κ, c :: p => costRun cls (costStep cls κ c) p

/-- A quaternion or matrix that becomes a rotation vector has cost at most 25 (see `convFits`). -/
def RvCost (d s : Kind) (c : ℕ) : Prop := d = .rv → s = .quat ∨ s = .mat → c ≤ 25

/-- The side condition of a command in terms of costs. -/
def cmdCheap (cls : ℕ → Kind) (κ : ℕ → ℕ) : Cmd → Prop
  | .assign d s => RvCost (cls d) (cls s) (κ s)
  | .mul d a b => RvCost (cls a) (cls b) (κ b) ∧ RvCost (cls d) (cls a) (mulCost (cls a) (cls b) (κ a) (κ b))
  | .inv d a => RvCost (cls d) (cls a) (κ a + 1)
  | .setIdentity _ => True
  | .exp _ w => w.norm ≤ 13
  | .boxPlus d a w => w.norm ≤ 13 ∧ RvCost (cls d) (cls a) (mulCost (cls a) (cls a) (convCost (cls a) .rv 0) (κ a))
  | .setUnique d => cls d ≠ .xyz ∧ cls d ≠ .zyx
  | .rotate _ _ => True
  | .inverseRotate _ _ => True
  | .disparity a b => RvCost (cls a) (cls b) (κ b + 1) ∧ mulCost (cls a) (cls b) (κ a) (κ b + 1) ≤ 10 ^ 7
  | .isNear a b _ => RvCost (cls a) (cls b) (κ b + 1) ∧ mulCost (cls a) (cls b) (κ a) (κ b + 1) ≤ 10 ^ 7

/-- Every command meets its side condition and the cost of every variable stays below ten million. -/
def Cheap (cls : ℕ → Kind) : (ℕ → ℕ) → List Cmd → Prop
  | κ, [] => ∀ i, κ i ≤ 10 ^ 7
  | κ, c :: p => (∀ i, κ i ≤ 10 ^ 7) ∧ cmdCheap cls κ c ∧ Cheap cls (costStep cls κ c) p

/-- The error of what a command prints in `double`. -/
def costErr (cls : ℕ → Kind) (κ : ℕ → ℕ) : Cmd → ℝ
  | .rotate a _ => (κ a + 1) * (4 / 10 ^ 12)
  | .inverseRotate a _ => (κ a + 2) * (4 / 10 ^ 12)
  | .disparity a b => (mulCost (cls a) (cls b) (κ a) (κ b + 1) + 2) * (1 / 10 ^ 11)
  | .isNear a b _ => (mulCost (cls a) (cls b) (κ a) (κ b + 1) + 2) * (1 / 10 ^ 11)
  | _ => 0

/-- The errors of everything the program prints in `double`. -/
def costErrs (cls : ℕ → Kind) : (ℕ → ℕ) → List Cmd → List ℝ
  | _, [] => []
  | κ, c :: p => costErr cls κ c :: costErrs cls (costStep cls κ c) p

end Kindr.Spec
