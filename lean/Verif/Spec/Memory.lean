import Verif.Model.Memory

/-!
# Value semantics of programs with references

Every variable holds a value; a reference to a part names the part.  A statement replaces the value of its target by the result of the
value-based function of the library on the *old* values of its arguments.
-/

set_option autoImplicit false

open Classical

noncomputable section
namespace Kindr.Spec
open Kindr

/-- The values of the variables of a program. -/
@[ext] structure Values (kind : ℕ → Kind) (poseKind : Kind) where
  vec : ℕ → V3
  wrench : ℕ → Wrench
  rot : (i : ℕ) → Rep (kind i)
  pose : ℕ → Pose poseKind

variable {kind : ℕ → Kind} {poseKind : Kind}

/-- A vector of the library as three numbers. -/
def asV3 {t : PhysicalType} (v : Vec t 3) : V3 := ⟨v.coeff 0, v.coeff 1, v.coeff 2⟩

/-- Three numbers as a vector of the library. -/
def asVec (t : PhysicalType) (v : V3) : Vec t 3 := ⟨![v.x, v.y, v.z]⟩

/-- The value of a vector reference. -/
def Values.getV (s : Values kind poseKind) : VRef → V3
  | .var i => s.vec i
  | .force i => asV3 (s.wrench i).force
  | .torque i => asV3 (s.wrench i).torque
  | .position i => (s.pose i).position

/-- Changing the value of a vector reference, and nothing else. -/
def Values.setV (s : Values kind poseKind) (x : VRef) (v : V3) : Values kind poseKind :=
  match x with
  | .var i => { s with vec := Function.update s.vec i v }
  | .force i => { s with wrench := Function.update s.wrench i ((s.wrench i).setForce (asVec .Force v)) }
  | .torque i => { s with wrench := Function.update s.wrench i ((s.wrench i).setTorque (asVec .Torque v)) }
  | .position i => { s with pose := Function.update s.pose i ⟨v, (s.pose i).rotation⟩ }

/-- Changing the value of a wrench variable. -/
def Values.setW (s : Values kind poseKind) (i : ℕ) (w : Wrench) : Values kind poseKind := { s with wrench := Function.update s.wrench i w }

/-- Changing the value of a pose variable. -/
def Values.setP (s : Values kind poseKind) (i : ℕ) (T : Pose poseKind) : Values kind poseKind := { s with pose := Function.update s.pose i T }

/-- The class of a rotation reference. -/
def kindOf (kind : ℕ → Kind) (poseKind : Kind) : RRef → Kind
  | .var i => kind i
  | .ofPose _ => poseKind

/-- The value of a rotation reference. -/
def Values.getR (s : Values kind poseKind) : (r : RRef) → Rep (kindOf kind poseKind r)
  | .var i => s.rot i
  | .ofPose i => (s.pose i).rotation

/-- Changing the value of a rotation reference, and nothing else. -/
def Values.setR (s : Values kind poseKind) : (r : RRef) → Rep (kindOf kind poseKind r) → Values kind poseKind
  | .var i => fun v => { s with rot := Function.update s.rot i v }
  | .ofPose i => fun v => { s with pose := Function.update s.pose i ⟨(s.pose i).position, v⟩ }

/-- Component `i` of a vector. -/
def compOf (v : V3) : Fin 3 → ℝ
  | 0 => v.x
  | 1 => v.y
  | 2 => v.z

/-- The effect of a statement on the values: the value-based functions of the library, applied to the old values. -/
def Values.run (P : Prec) (s : Values kind poseKind) : Call → Values kind poseKind
  | .addV x y => s.setV x (s.getV x + s.getV y)
  | .subV x y => s.setV x (s.getV x - s.getV y)
  | .mulV x y i => s.setV x ((compOf (s.getV y) i) • s.getV x)
  | .divV x y i => s.setV x (asV3 ((asVec .Typeless (s.getV x)).sdiv (compOf (s.getV y) i)))
  | .copyV x y => s.setV x (s.getV y)
  | .zeroV x => s.setV x 0
  | .normalizeV x => s.setV x (asV3 (asVec .Typeless (s.getV x)).normalized)
  | .addW x y => s.setW x ((s.wrench x).add (s.wrench y))
  | .subW x y => s.setW x ((s.wrench x).sub (s.wrench y))
  | .mulW x y i => s.setW x ((s.wrench x).smul (compOf (s.getV y) i))
  | .divW x y i => s.setW x ((s.wrench x).sdiv (compOf (s.getV y) i))
  | .copyW x y => s.setW x (s.wrench y)
  | .invert r => s.setR r (inverted _ (s.getR r))
  | .setUnique r => s.setR r (getUnique P _ (s.getR r))
  | .convert r u => s.setR r (conv P _ _ (s.getR u))
  | .product r u v => s.setR r (conv P _ _ (mult P _ _ (s.getR u) (s.getR v)))
  | .rotate x r y => s.setV x (rotate P _ (s.getR r) (s.getV y))
  | .transform x p y => s.setV x ((s.pose p).transform P _ (s.getV y))
  | .productP p q u => s.setP p (Pose.mult P _ _ (s.pose q) (s.pose u))

/-- The effect of a program. -/
def Values.runAll (P : Prec) (s : Values kind poseKind) : List Call → Values kind poseKind
  | [] => s
  | c :: cs => (s.run P c).runAll P cs

/-- An order in which a loop visits the coefficients `0, …, n - 1`: each exactly once. -/
def IsOrder (n : ℕ) (o : List ℕ) : Prop := o.Perm (List.range n)

/-- Different variables (and the temporary) occupy different cells. -/
def Separate (L : Layout) : Prop :=
  ∀ b b', b ≠ b' → L.base b + L.size b ≤ L.base b' ∨ L.base b' + L.size b' ≤ L.base b

/-- What the memory says about the values of the variables. -/
def values (L : Layout) (m : Mem) : Values L.kind L.poseKind where
  vec := fun i => loadV m (L.base (.vec i))
  wrench := fun i => loadW m (L.base (.wrench i))
  rot := fun i => loadR m (L.base (.rot i)) (L.kind i)
  pose := fun i => loadP m (L.base (.pose i)) L.poseKind

/-- Two stretches of memory of length `n` and `n'` have no cell in common. -/
def Apart (n a n' b : ℕ) : Prop := a + n ≤ b ∨ b + n' ≤ a

/-- Memory changed only in the `n` cells from `a` on. -/
def OnlyChanges (n a : ℕ) (m m' : Mem) : Prop := ∀ x, ¬ (a ≤ x ∧ x < a + n) → m' x = m x

/-- The vector object of dimension `n` at address `a`. -/
def loadN (t : PhysicalType) (n : ℕ) (m : Mem) (a : ℕ) : Vec t n := ⟨fun i => m (a + i)⟩

end Kindr.Spec
