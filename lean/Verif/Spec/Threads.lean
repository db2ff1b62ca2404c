import Verif.Model.Threads
import Verif.Spec.Memory

/-!
# Programs with several threads
-/

set_option autoImplicit false

open Classical

noncomputable section
namespace Kindr.Spec
open Kindr

variable {n : ℕ}

/-- An execution of several threads: the operations in the order in which they take place, each with its thread; the operations of every
thread are those of its program, in their order. -/
def IsSchedule (prog : Fin n → List Op) (s : List (Fin n × Op)) : Prop :=
  ∀ i, (s.filter fun p => p.1 = i).map Prod.snd = prog i

/-- A stretch of cells: address and length. -/
def InCells (r : ℕ × ℕ) (x : ℕ) : Prop := r.1 ≤ x ∧ x < r.1 + r.2

/-- The cells a call changes: those of its target. -/
def written (L : Layout) : Call → ℕ × ℕ
  | .addV x _ | .subV x _ | .mulV x _ _ | .divV x _ _ | .copyV x _ | .zeroV x | .normalizeV x | .rotate x _ _ | .transform x _ _ => (L.vaddr x, 3)
  | .addW x _ | .subW x _ | .mulW x _ _ | .divW x _ _ | .copyW x _ => (L.base (.wrench x), 6)
  | .invert r | .setUnique r | .convert r _ | .product r _ _ => (L.raddr r, repSize (L.rkind r))
  | .productP p _ _ => (L.base (.pose p), 3 + repSize L.poseKind)

/-- The cells of the arguments of a call. -/
def argCells (L : Layout) : Call → List (ℕ × ℕ)
  | .addV _ y | .subV _ y | .copyV _ y => [(L.vaddr y, 3)]
  | .mulV _ y i | .divV _ y i | .mulW _ y i | .divW _ y i => [(L.vaddr y + i, 1)]
  | .zeroV _ | .normalizeV _ | .invert _ | .setUnique _ => []
  | .addW _ y | .subW _ y | .copyW _ y => [(L.base (.wrench y), 6)]
  | .convert _ s => [(L.raddr s, repSize (L.rkind s))]
  | .product _ s u => [(L.raddr s, repSize (L.rkind s)), (L.raddr u, repSize (L.rkind u))]
  | .rotate _ r y => [(L.raddr r, repSize (L.rkind r)), (L.vaddr y, 3)]
  | .transform _ p y => [(L.base (.pose p), 3 + repSize L.poseKind), (L.vaddr y, 3)]
  | .productP _ q s => [(L.base (.pose q), 3 + repSize L.poseKind), (L.base (.pose s), 3 + repSize L.poseKind)]

/-- The cells a call reads or writes. -/
def Touches (L : Layout) (c : Call) (x : ℕ) : Prop := InCells (written L c) x ∨ ∃ r ∈ argCells L c, InCells r x

/-- No data race: a cell that one thread changes is neither read nor changed by another one. -/
def RaceFree (L : Layout) (prog : Fin n → List Call) : Prop :=
  ∀ i j, i ≠ j → ∀ c ∈ prog i, ∀ c' ∈ prog j, ∀ x, InCells (written L c) x → ¬ Touches L c' x

/-- Layouts of several threads: the variables and the temporaries of every thread occupy cells of their own. -/
def SeparateThreads (L : Layout) (τ : Fin n → ℕ) : Prop :=
  (∀ i, Separate (L.withTmp (τ i))) ∧ ∀ i j, i ≠ j → Apart 36 (τ i) 36 (τ j)

/-- The programs of all threads, one after the other. -/
def inSequence (prog : Fin n → List Call) : List Call := (List.finRange n).flatMap prog

/-- The value of an operation depends on the temporaries only. -/
def LocalOp (t : ℕ) (p : Op) : Prop := ∀ m m' : Mem, (∀ x, t ≤ x ∧ x < t + 36 → m x = m' x) → p.val m = p.val m'

/-- The value of an operation depends on the temporaries and the cell `y`. -/
def LoadOp (t y : ℕ) (p : Op) : Prop := ∀ m m' : Mem, (∀ x, t ≤ x ∧ x < t + 36 → m x = m' x) → m y = m' y → p.val m = p.val m'

/-- An operation either changes a temporary, reading at most one cell that the call touches, or stores a number computed from temporaries
in the target. -/
def Accesses (L : Layout) (c : Call) (p : Op) : Prop :=
  (InCells (L.base .tmp, 36) p.dst ∧ (LocalOp (L.base .tmp) p ∨ ∃ y, Touches L c y ∧ LoadOp (L.base .tmp) y p)) ∨
  (InCells (written L c) p.dst ∧ LocalOp (L.base .tmp) p)

/-- A program of one thread: calls with the orders of their loops. -/
abbrev ThreadProg := List (Call × (ℕ → ℕ → List ℕ))

end Kindr.Spec
