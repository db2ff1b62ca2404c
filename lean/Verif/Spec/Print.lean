import Verif.Model.Print

/-!
# Reading the printed text

How a person or a program reads the text: words are separated by spaces, commas and line breaks.
-/

set_option autoImplicit false

noncomputable section
namespace Kindr.Spec
open Kindr

/-- The characters between two numbers. -/
def isSeparator (c : Char) : Bool := c == ' ' || c == ',' || c == '\n'

/-- The words of a text. -/
def words (t : Text) : List Text := (t.splitOnP isSeparator).filter fun w => !w.isEmpty

/-- The lines of a text. -/
def lines (t : Text) : List Text := t.splitOnP (· == '\n')

/-- `fmt` writes a number as one word. -/
def NumberFormat (fmt : ℝ → Text) : Prop := ∀ x, fmt x ≠ [] ∧ ∀ c ∈ fmt x, isSeparator c = false

/-- The numbers that define a rotation, in the documented order: `w x y z`; the matrix row by row; `angle, axis`; the rotation vector;
`roll pitch yaw`; `yaw pitch roll`. -/
def numbers : (k : Kind) → Rep k → List ℝ
  | .quat => fun (q : Quat) => [q.w, q.x, q.y, q.z]
  | .mat => fun (m : M3) => [m.m00, m.m01, m.m02, m.m10, m.m11, m.m12, m.m20, m.m21, m.m22]
  | .aa => fun (a : AngAx) => [a.angle, a.axis.x, a.axis.y, a.axis.z]
  | .rv => fun (r : RotVec) => [r.v.x, r.v.y, r.v.z]
  | .xyz => fun (e : EulXyz) => [e.x, e.y, e.z]
  | .zyx => fun (e : EulZyx) => [e.z, e.y, e.x]

end Kindr.Spec
