import Mathlib.Analysis.InnerProductSpace.PiL2
import Verif.Model.Vector

/-!
# Independent specification of vectors

A vector stands for the point of Mathlib's Euclidean space with the same coordinates; a history of writes stands for
the array in which every cell holds the last value written to it.
-/

set_option autoImplicit false

namespace Kindr.Spec
open Kindr

/-- The point of Euclidean `n`-space with the same coordinates. -/
def toE {t : PhysicalType} {n : ℕ} (v : Vec t n) : EuclideanSpace ℝ (Fin n) := WithLp.toLp 2 v.coeff

/-- One write through the public interface; ranges must lie inside the vector. -/
inductive Write (t : PhysicalType) (n : ℕ) where
  | head (m : ℕ) (h : m ≤ n) (data : Vec t m)
  | tail (m : ℕ) (h : m ≤ n) (data : Vec t m)
  | segment (start m : ℕ) (h : start + m ≤ n) (data : Vec t m)
  | zero

namespace Write
variable {t : PhysicalType} {n : ℕ}

/-- Execute the write with the member function of that name. -/
noncomputable def exec (v : Vec t n) : Write t n → Vec t n
  | head _ _ d => v.setHead d
  | tail _ _ d => v.setTail d
  | segment s _ _ d => v.setSegment s d
  | zero => Vec.Zero

/-- What the write stores in cell `i`: `none` if it does not touch the cell. -/
def stores (i : Fin n) : Write t n → Option ℝ
  | head m _ d => if h : (i : ℕ) < m then some (d.coeff ⟨i, h⟩) else none
  | tail m _ d => if h : n - m ≤ (i : ℕ) then some (d.coeff ⟨i - (n - m), by omega⟩) else none
  | segment s m _ d => if h : s ≤ (i : ℕ) ∧ (i : ℕ) < s + m then some (d.coeff ⟨i - s, by omega⟩) else none
  | zero => some 0

end Write
end Kindr.Spec
