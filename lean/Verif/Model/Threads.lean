import Verif.Model.Memory

/-!
# Calls as sequences of single memory accesses

For programs with several threads a call is not one step.  Here every call of `Model/Memory.lean` is a list of operations each of which
accesses at most one number of a variable: it loads one number into a temporary (a register or stack slot of the thread), or stores one
number computed from temporaries.  The temporaries of a thread are the 36 cells from `L.base .tmp` on.  Simplifications: as in
`Model/Memory.lean`; memory accesses of different threads take place one after the other (what C++ guarantees for programs without data
races); `normalize()` of a zero vector, which stores nothing, stores the old coefficients here.
-/

set_option autoImplicit false

open Classical

noncomputable section
namespace Kindr

/-- One memory operation: the cell `dst` gets the value `val`, computed from the current memory. -/
structure Op where
  dst : ℕ
  val : Mem → ℝ

/-- One operation is carried out. -/
def Op.run (p : Op) (m : Mem) : Mem := Function.update m p.dst (p.val m)

/-- A list of operations is carried out. -/
def runOps (l : List Op) (m : Mem) : Mem := l.foldl (fun m p => p.run m) m

/-- A coefficient loop with two operands, as in `v += w` (include/kindr/vectors/Vector.hpp:405-408, 414-417): load, load, store. -/
def binOps (t a b : ℕ) (f : ℝ → ℝ → ℝ) (o : List ℕ) : List Op :=
  o.flatMap fun i => [⟨t, fun m => m (a + i)⟩, ⟨t + 1, fun m => m (b + i)⟩, ⟨a + i, fun m => f (m t) (m (t + 1))⟩]

/-- A coefficient loop with a factor held in the cell `t + 1`, as in `v *= x` (include/kindr/vectors/Vector.hpp:423-427, 443-447). -/
def scaleOps (t a : ℕ) (f : ℝ → ℝ → ℝ) (o : List ℕ) : List Op :=
  o.flatMap fun i => [⟨t, fun m => m (a + i)⟩, ⟨a + i, fun m => f (m t) (m (t + 1))⟩]

/-- A copy loop, as in `v = w` (include/kindr/vectors/Vector.hpp:342). -/
def copyOps (t a b : ℕ) (o : List ℕ) : List Op :=
  o.flatMap fun i => [⟨t, fun m => m (b + i)⟩, ⟨a + i, fun m => m t⟩]

/-- The cells `b, …, b + n - 1` are loaded into temporaries from `t` on. -/
def loadOps (t b n : ℕ) : List Op := (List.range n).map fun i => ⟨t + i, fun m => m (b + i)⟩

/-- `n` results, computed from the temporaries, are put into temporaries from `t + 24` on. -/
def computeOps (t n : ℕ) (F : Mem → List ℝ) : List Op := (List.range n).map fun i => ⟨t + 24 + i, fun m => (F m).getD i 0⟩

/-- The results are copied to the target (the assignment in `*this = f(..)`, for instance
include/kindr/rotations/RotationQuaternion.hpp:298-301). -/
def storeOps (t a : ℕ) (o : List ℕ) : List Op := o.map fun i => ⟨a + i, fun m => m (t + 24 + i)⟩

/-- The operations of a call; `o j n` is the order of the `j`-th loop (methods cited in `Model/Memory.lean`). -/
def Layout.ops (L : Layout) (P : Prec) (o : ℕ → ℕ → List ℕ) : Call → List Op
  | .addV x y => binOps (L.base .tmp) (L.vaddr x) (L.vaddr y) (· + ·) (o 0 3)
  | .subV x y => binOps (L.base .tmp) (L.vaddr x) (L.vaddr y) (· - ·) (o 0 3)
  | .mulV x y i => ⟨L.base .tmp + 1, fun m => m (L.vaddr y + i)⟩ :: scaleOps (L.base .tmp) (L.vaddr x) (· * ·) (o 0 3)
  | .divV x y i => ⟨L.base .tmp + 1, fun m => m (L.vaddr y + i)⟩ :: scaleOps (L.base .tmp) (L.vaddr x) (· / ·) (o 0 3)
  | .copyV x y => copyOps (L.base .tmp) (L.vaddr x) (L.vaddr y) (o 0 3)
  | .zeroV x => (o 0 3).map fun i => ⟨L.vaddr x + i, fun _ => 0⟩
  | .normalizeV x =>
      loadOps (L.base .tmp) (L.vaddr x) 3
        ++ computeOps (L.base .tmp) 3 (fun m =>
            let z := ∑ i : Fin 3, m (L.base .tmp + i) * m (L.base .tmp + i)
            (List.range 3).map fun i => if 0 < z then m (L.base .tmp + i) / Real.sqrt z else m (L.base .tmp + i))
        ++ storeOps (L.base .tmp) (L.vaddr x) (o 0 3)
  | .addW x y => binOps (L.base .tmp) (L.base (.wrench x)) (L.base (.wrench y)) (· + ·) (o 0 3)
      ++ binOps (L.base .tmp) (L.base (.wrench x) + 3) (L.base (.wrench y) + 3) (· + ·) (o 1 3)
  | .subW x y => binOps (L.base .tmp) (L.base (.wrench x)) (L.base (.wrench y)) (· - ·) (o 0 3)
      ++ binOps (L.base .tmp) (L.base (.wrench x) + 3) (L.base (.wrench y) + 3) (· - ·) (o 1 3)
  | .mulW x y i => ⟨L.base .tmp + 1, fun m => m (L.vaddr y + i)⟩ ::
      (scaleOps (L.base .tmp) (L.base (.wrench x)) (· * ·) (o 0 3) ++ scaleOps (L.base .tmp) (L.base (.wrench x) + 3) (· * ·) (o 1 3))
  | .divW x y i => ⟨L.base .tmp + 1, fun m => m (L.vaddr y + i)⟩ ::
      (scaleOps (L.base .tmp) (L.base (.wrench x)) (· / ·) (o 0 3) ++ scaleOps (L.base .tmp) (L.base (.wrench x) + 3) (· / ·) (o 1 3))
  | .copyW x y => copyOps (L.base .tmp) (L.base (.wrench x)) (L.base (.wrench y)) (o 0 3)
      ++ copyOps (L.base .tmp) (L.base (.wrench x) + 3) (L.base (.wrench y) + 3) (o 1 3)
  | .invert r => loadOps (L.base .tmp) (L.raddr r) (repSize (L.rkind r))
      ++ computeOps (L.base .tmp) (repSize (L.rkind r)) (fun m => repStore _ (inverted (L.rkind r) (loadR m (L.base .tmp) _)))
      ++ storeOps (L.base .tmp) (L.raddr r) (o 1 (repSize (L.rkind r)))
  | .setUnique r => loadOps (L.base .tmp) (L.raddr r) (repSize (L.rkind r))
      ++ computeOps (L.base .tmp) (repSize (L.rkind r)) (fun m => repStore _ (getUnique P (L.rkind r) (loadR m (L.base .tmp) _)))
      ++ storeOps (L.base .tmp) (L.raddr r) (o 0 (repSize (L.rkind r)))
  | .convert r s => loadOps (L.base .tmp) (L.raddr s) (repSize (L.rkind s))
      ++ computeOps (L.base .tmp) (repSize (L.rkind r)) (fun m => repStore _ (conv P (L.rkind r) (L.rkind s) (loadR m (L.base .tmp) _)))
      ++ storeOps (L.base .tmp) (L.raddr r) (o 0 (repSize (L.rkind r)))
  | .product r s u => loadOps (L.base .tmp) (L.raddr s) (repSize (L.rkind s)) ++ loadOps (L.base .tmp + 12) (L.raddr u) (repSize (L.rkind u))
      ++ computeOps (L.base .tmp) (repSize (L.rkind r)) (fun m => repStore _ (conv P (L.rkind r) (L.rkind s)
          (mult P (L.rkind s) (L.rkind u) (loadR m (L.base .tmp) _) (loadR m (L.base .tmp + 12) _))))
      ++ storeOps (L.base .tmp) (L.raddr r) (o 0 (repSize (L.rkind r)))
  | .rotate x r y => loadOps (L.base .tmp) (L.raddr r) (repSize (L.rkind r)) ++ loadOps (L.base .tmp + 12) (L.vaddr y) 3
      ++ computeOps (L.base .tmp) 3 (fun m =>
          let v := rotate P (L.rkind r) (loadR m (L.base .tmp) _) (loadV m (L.base .tmp + 12))
          [v.x, v.y, v.z])
      ++ storeOps (L.base .tmp) (L.vaddr x) (o 0 3)
  | .transform x p y => loadOps (L.base .tmp) (L.base (.pose p)) (3 + repSize L.poseKind) ++ loadOps (L.base .tmp + 12) (L.vaddr y) 3
      ++ computeOps (L.base .tmp) 3 (fun m =>
          let v := (loadP m (L.base .tmp) L.poseKind).transform P _ (loadV m (L.base .tmp + 12))
          [v.x, v.y, v.z])
      ++ storeOps (L.base .tmp) (L.vaddr x) (o 0 3)
  | .productP p q s => loadOps (L.base .tmp) (L.base (.pose q)) (3 + repSize L.poseKind)
      ++ loadOps (L.base .tmp + 12) (L.base (.pose s)) (3 + repSize L.poseKind)
      ++ computeOps (L.base .tmp) (3 + repSize L.poseKind) (fun m => poseStore _
          (Pose.mult P _ _ (loadP m (L.base .tmp) L.poseKind) (loadP m (L.base .tmp + 12) L.poseKind)))
      ++ storeOps (L.base .tmp) (L.base (.pose p)) (o 0 (3 + repSize L.poseKind))

/-- The operations of a program (a sequence of calls, as in `Layout.execAll`). -/
def Layout.opsAll (L : Layout) (P : Prec) (cs : List (Call × (ℕ → ℕ → List ℕ))) : List Op := cs.flatMap fun c => L.ops P c.2 c.1

/-- The same variables, with the temporaries of another thread, at address `τ`. -/
def Layout.withTmp (L : Layout) (τ : ℕ) : Layout where
  kind := L.kind
  poseKind := L.poseKind
  base := fun b => match b with
    | .vec i => L.base (.vec i)
    | .wrench i => L.base (.wrench i)
    | .rot i => L.base (.rot i)
    | .pose i => L.base (.pose i)
    | .tmp => τ

end Kindr
